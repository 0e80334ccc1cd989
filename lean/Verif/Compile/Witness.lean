import Verif.Compile.Verified2
import Verif.Compile.Errors

/-!
# A concrete program

```rego
default allow := false
allow if { u := input.user; admins[u] }
allow if { u := input.user; r := data.users[_]; tagged(r)[u] }
admins contains n if { r := data.users[_]; r.role == "admin"; n := r.name } { n := data.root }
names[n] := r if { u := data.users[_]; n := u.name; r := u.role }
names.root := "root" if { data.root } else := "none"
known if { input.user } { data.users }
tagged(r) := {n: t} if { n := r.name; t := r.tag }
```
-/

namespace Verif.Compile.Witness

open Verif.VM (Ctx BRes evalEntrypoint)

/-- The library of the examples. -/
def lib : Lib := Double.ieeeLib id

/-- A text. -/
abbrev t (s : String) : Str := s.toList

/-- Two builtins: `equal`, which compares, and `nothing`, which is undefined. -/
def isB (f : Str) : Bool := f == t "equal" || f == t "nothing"

/-- The builtins. -/
def bis (f : Str) (vs : List (Option Val)) : BRes :=
  if f = t "equal" then
    match vs with
    | [some a, some b] => .val (boolVal (same ⟨lib, isB, fun _ _ => .undef, fun _ _ _ _ => .err⟩ a b))
    | _ => if vs.contains none then .undef else .error (t "equal: two arguments expected")
  else .undef

/-- The meaning of builtins. -/
def world : World := ⟨lib, isB, bis, fun _ _ _ _ => .err⟩

/-- A machine for a bundle. -/
def ctx (b : Bundle) : Ctx Unit where
  lib := lib
  cfg := { stmtLimit := 1000, maxCallDepth := 10, maxBlockDepth := 10, depth := 8 }
  bundle := b
  bi := ⟨isB, fun x f vs => (bis f vs, x), fun x => x⟩

/-- The surroundings of a program with the given strings. -/
def surr (strings : List String) : Ctxt where
  strings := strings.map String.toList
  isBuiltin := isB
  total f := f == t "equal"
  strict f := f == t "equal" || f == t "nothing"
  falsy f := f == t "equal"
  arity _ := none
  lo := 0
  hi := 0

theorem fits {ss : List String} {rs : List Rule} {es : List Entry} (h : ss.length ≤ 2 ^ 63) :
    Fits (ctx (cBundle (surr ss).toNames rs es)) (surr ss) world where
  lib := rfl
  isB _ := rfl
  isBW _ := rfl
  call _ _ _ _ := rfl
  strings := rfl
  few := by
    show (ss.map String.toList).length ≤ _
    rw [List.length_map]
    exact h
  total f hf vs := by
    have hf : f = t "equal" := by simpa [surr] using hf
    show bis f _ ≠ _
    unfold bis
    rw [if_pos hf]
    have hn : (vs.map some).contains none = false := by simp
    split
    · simp
    · rw [hn]
      simp
  strict f hf vs hn := by
    show bis f vs = .undef
    unfold bis
    split
    · split
      · simp at hn
      · rw [if_pos (by simpa using hn)]
    · rfl
  falsy f hf vs hn := by
    refine .inl ?_
    show bis f vs = .undef
    unfold bis
    split
    · split
      · simp at hn
      · rw [if_pos (by simpa using hn)]
    · rfl
  clean f vs v _ h := by
    replace h : bis f _ = .val v := h
    unfold bis at h
    split at h
    · split at h
      · cases h
        unfold boolVal
        refine .leaf fun c => ?_
        split <;> simp
      · split at h <;> cases h
    · cases h
  equal _ a b _ _ := by
    show bis "equal".toList [some a, some b] = .val (boolVal (same world a b))
    unfold bis
    rw [if_pos rfl]
    rfl

/-- The strings of the program. -/
def strings : List String := ["user", "users", "role", "admin", "name", "tag", "root", "none", "result"]

/-- `e.k`. -/
abbrev fld (e : Expr) (k : String) : Expr := .dot e (.str (t k))

/-- `tagged(r) := {n: t}`; the head value is computed in the body. -/
def tagged : Rule where
  name := t "tagged"
  params := [2]
  lo := 2
  hi := 6
  kind := .complete [[[⟨.var 5, .lit (.assign 3 (fld (.var 2) "name")) (.lit (.assign 4 (fld (.var 2) "tag"))
    (.lit (.assign 5 (.obj (.cons (.var 3) (.var 4) .nil))) .nil))⟩]]] none

/-- `names[n] := r` and `names.root`. -/
def names : Rule where
  name := t "names"
  params := []
  lo := 20
  hi := 24
  kind := .obj [.dyn (.var 22) ⟨.var 23, .scan (fld (.var 1) "users") 20 21 (.lit (.assign 22 (fld (.var 21) "name"))
      (.lit (.assign 23 (fld (.var 21) "role")) .nil))⟩,
    .stat (.str (t "root")) [⟨.str (t "root"), .lit (.expr (fld (.var 1) "root")) .nil⟩, ⟨.str (t "none"), .nil⟩]]

/-- `admins contains n`. -/
def admins : Rule where
  name := t "admins"
  params := []
  lo := 40
  hi := 44
  kind := .set [[⟨.var 42, .scan (fld (.var 1) "users") 40 41 (.lit (.expr (.eq (fld (.var 41) "role") (.str (t "admin"))))
    (.lit (.assign 42 (fld (.var 41) "name")) .nil))⟩, ⟨.var 43, .lit (.assign 43 (fld (.var 1) "root")) .nil⟩]]

/-- `allow`. -/
def allow : Rule where
  name := t "allow"
  params := []
  lo := 60
  hi := 65
  kind := .complete [[[⟨.tru, .lit (.assign 60 (fld (.var 0) "user"))
      (.lit (.expr (.dot (.call (t "admins") .nil) (.var 60))) .nil)⟩]],
    [[⟨.tru, .lit (.assign 61 (fld (.var 0) "user")) (.scan (fld (.var 1) "users") 62 63
      (.lit (.assign 64 (.call (t "tagged") (.cons (.var 63) .nil)))
      (.lit (.expr (.dot (.var 64) (.var 61))) .nil)))⟩]]] (some .fls)

/-- `known`. -/
def known : Rule where
  name := t "known"
  params := []
  lo := 80
  hi := 80
  kind := .complete [[[⟨.tru, .lit (.expr (fld (.var 0) "user")) .nil⟩,
    ⟨.tru, .lit (.expr (fld (.var 1) "users")) .nil⟩]]] none

/-- The program. -/
def rules : List Rule := [known, allow, admins, names, tagged]

/-- The entry points. -/
def entries : List Entry := [⟨t "allow", t "allow", 100, 101⟩, ⟨t "names", t "names", 102, 103⟩,
  ⟨t "admins", t "admins", 104, 105⟩, ⟨t "known", t "known", 106, 107⟩]

/-- The compiled program. -/
def bundle : Bundle := cBundle (surr strings).toNames rules entries

theorem wf : wfProg (surr strings) rules = true := by decide +kernel

theorem entriesOk : ∀ e ∈ entries, EntryOk (surr strings).toNames rules e := by
  unfold EntryOk
  decide +kernel

/-- A string. -/
abbrev str (s : String) : Val := .leaf (.str (t s))

/-- A user. -/
def user (ps : List (String × String)) : Val := .obj (ps.map fun p => (str p.1, str p.2))

/-- Three users. -/
def users : Val := .obj [(str "root", str "ann"), (str "users", .arr [user [("name", "ann"), ("role", "admin")],
  user [("name", "bob"), ("role", "dev"), ("tag", "x")], user [("name", "eve"), ("role", "dev")]])]

/-- A request. -/
def req (s : String) : Val := user [("user", s)]

/-- The value of a rule. -/
def val (f s : String) : Res Val := fnOf world rules (some (req s)) (some users) (t f) []

example : outcome (val "allow" "ann") = some (.results [([.leaf .tru], [])]) := by decide +kernel
example : outcome (val "allow" "bob") = some (.results [([.leaf .tru], [])]) := by decide +kernel
example : outcome (val "allow" "eve") = some (.results [([.leaf .fls], [])]) := by decide +kernel
example : outcome (val "admins" "") = some (.results [([.set [str "ann"]], [])]) := by decide +kernel
example : outcome (val "names" "") = some (.results [([.obj [(str "ann", str "admin"), (str "bob", str "dev"),
    (str "eve", str "dev"), (str "root", str "root")]], [])]) := by decide +kernel

example : outcome (val "known" "") = some (.results [([.leaf .tru], [])]) := by decide +kernel

/-- The virtual machine gives these values. -/
example : ∀ p ∈ [("allow", "ann"), ("allow", "bob"), ("allow", "eve"), ("admins", ""), ("names", ""), ("known", "")],
    evalEntrypoint (ctx bundle) (some users) (some (req p.2)) () (t p.1) =
      .output ((outcome (val p.1 p.2)).getD .undefined) := by decide +kernel

/-- The rule with two bodies has no conflicts. -/
theorem agreeing : Agreeing world rules := by
  have h : ∀ r ∈ [allow, admins, names, tagged], OneBody r.kind := by
    intro r hr
    simp only [List.mem_cons, List.not_mem_nil, or_false] at hr
    rcases hr with rfl | rfl | rfl | rfl <;> simp [OneBody, allow, admins, names, tagged]
  refine ⟨⟨⟨⟨⟨trivial, .inl (h _ (by simp))⟩, .inl (h _ (by simp))⟩, .inl (h _ (by simp))⟩, .inl (h _ (by simp))⟩,
    .inr fun inp dat vs hl => ?_⟩
  rw [ruleVal, if_pos hl]
  have hb : ∀ (W : World) (env : Env) (x : Nat) (k : String),
      bodyVals W env ⟨.tru, .lit (.expr (fld (.var x) k)) .nil⟩ = some [] ∨
      bodyVals W env ⟨.tru, .lit (.expr (fld (.var x) k)) .nil⟩ = some [.leaf .tru] := by
    intro W env x k
    simp only [bodyVals, sols, evalLit, eval]
    rcases env x with _ | v
    · exact .inl rfl
    · dsimp only [Res.bind]
      rcases Copy.dot W.lib (some v) (some (.leaf (.str (t k)))) with _ | r
      · exact .inl rfl
      · dsimp only
        cases same W r (.leaf .fls)
        · exact .inr rfl
        · exact .inl rfl
  unfold known
  dsimp only
  generalize ({ world with fn := _ } : World) = W
  generalize ruleEnv inp dat [] vs = env
  simp only [kindVal, List.mapM_cons, List.mapM_nil, defVal, headVals]
  rcases hb W env 0 "user" with h1 | h1 <;> rcases hb W env 1 "users" with h2 | h2 <;> rw [h1, h2] <;>
    simp [agree]

theorem verified : bundle.verify = .ok ∧ bundle.Scoped :=
  accepted wf entriesOk (.inr (by decide +kernel)) (by decide +kernel) (by decide +kernel)

end Verif.Compile.Witness
