import Verif.VM.NumberVerify
import Verif.VM.Witness

/-!
# C87: the numbers of locals and the order of functions do not matter
-/

namespace Verif.VM

variable {σ : Type} (C : Ctx σ) {bd' : Bundle} {P : Numbering C.bundle.localCount}

/-- **C87 (entry points).** A bundle whose locals are numbered in another way and whose
functions are listed in another order has the same outcome for every entry point, on all
documents and with all limits, whether that is a result, an error or an abnormal end. -/
theorem C87_entrypoint (R : Renumbered C.bundle bd' P) (data input : Option Val) (bi : σ) (name : Str) :
    evalEntrypoint { C with bundle := bd' } data input bi name = evalEntrypoint C data input bi name := by
  have Q : Pair C { C with bundle := bd' } P := ⟨⟨rfl, rfl, rfl⟩, R⟩
  unfold evalEntrypoint runEntrypoint
  have hp : (({ C with bundle := bd' } : Ctx σ).bundle).findPlan name = C.bundle.findPlan name := by
    unfold Bundle.findPlan
    rw [← R.nameToPlan]
  rw [hp]
  cases C.bundle.findPlan name with
  | none => rfl
  | some i =>
    have := execPlan_number Q (boot data input).1 (boot data input).2.1 (boot data input).2.2 bi i
    dsimp only
    rcases he : execPlan C (boot data input).1 (boot data input).2.1 (boot data input).2.2 bi i with e | s
    · rw [he] at this
      dsimp only at this
      rw [this]
    · rw [he] at this
      obtain ⟨g, h⟩ := this
      rw [h]
      rfl

/-- **C87 (queries).** The same for the query plan. -/
theorem C87_query (R : Renumbered C.bundle bd' P) (data input : Option Val) (bi : σ) :
    evalQuery { C with bundle := bd' } data input bi = evalQuery C data input bi := by
  have Q : Pair C { C with bundle := bd' } P := ⟨⟨rfl, rfl, rfl⟩, R⟩
  unfold evalQuery runQuery
  have hp : (({ C with bundle := bd' } : Ctx σ).bundle).queryPlan = C.bundle.queryPlan := R.queryPlan
  rw [hp]
  cases C.bundle.queryPlan with
  | none => rfl
  | some i =>
    have := execPlan_number Q (boot data input).1 (boot data input).2.1 (boot data input).2.2 bi i
    dsimp only
    rcases he : execPlan C (boot data input).1 (boot data input).2.1 (boot data input).2.2 bi i with e | s
    · rw [he] at this
      dsimp only at this
      rw [this]
    · rw [he] at this
      obtain ⟨g, h⟩ := this
      rw [h]
      rfl

/-- **C87 (verifier).** A bundle the verifier accepts, and which meets the conditions it does
not check, keeps both under another numbering. -/
theorem C87_verified {bd bd' : Bundle} {P : Numbering bd.localCount} (R : Renumbered bd bd' P) (h : bd.verify = .ok)
    (hs : bd.Scoped) : bd'.verify = .ok ∧ bd'.Scoped := R.verify h hs

end Verif.VM

/-! ## Renumbered bundles exist -/

namespace Verif

/-- The numbering that exchanges two locals. -/
def Numbering.swap {count : Nat} (a b : Nat) (ha : 2 ≤ a ∧ a < count) (hb : 2 ≤ b ∧ b < count) (hc : count ≤ 2 ^ 31) :
    Numbering count where
  fwd k := if k = a then b else if k = b then a else k
  inv k := if k = a then b else if k = b then a else k
  inv_to k := by split <;> split <;> (try split) <;> omega
  to_inv k := by split <;> split <;> (try split) <;> omega
  input := by split <;> (try split) <;> omega
  data := by split <;> (try split) <;> omega
  outside k hk := by split <;> (try split) <;> omega
  small := hc

/-- The numbering that changes nothing. -/
def Numbering.refl {count : Nat} (hc : count ≤ 2 ^ 31) : Numbering count where
  fwd k := k
  inv k := k
  inv_to _ := rfl
  to_inv _ := rfl
  input := rfl
  data := rfl
  outside _ _ := rfl
  small := hc

/-- One numbering after another. -/
def Numbering.trans {count : Nat} (P Q : Numbering count) : Numbering count where
  fwd k := Q.fwd (P.fwd k)
  inv k := P.inv (Q.inv k)
  inv_to k := by rw [Q.inv_to, P.inv_to]
  to_inv k := by rw [P.to_inv, Q.to_inv]
  input := by rw [P.input, Q.input]
  data := by rw [P.data, Q.data]
  outside k hk := by rw [P.outside k hk, Q.outside k hk]
  small := P.small

/-- The bundle with its locals renumbered and its functions listed as `fs`. -/
def Bundle.relist (bd : Bundle) (P : Numbering bd.localCount) (fs : List Function) : Bundle :=
  { bd with
    nameToFunc := fs.zipIdx.map fun p => (p.1.name, p.2)
    functions := fs.map P.func
    plans := bd.plans.map P.plan }

theorem lookup_find {α : Type} {name : Str} {g : α → Str} : ∀ (l : List α) (m : Nat),
    ((l.zipIdx m).map fun p => (g p.1, p.2)).lookup name = (l.findIdx? fun x => g x == name).map (· + m)
  | [], _ => rfl
  | x :: l, m => by
    rw [List.zipIdx_cons, List.map_cons, List.lookup_cons, List.findIdx?_cons]
    by_cases h : g x = name
    · rw [h, beq_self_eq_true, if_pos rfl]
      simp
    · rw [beq_eq_false_iff_ne.mpr (fun e => h e.symm), beq_eq_false_iff_ne.mpr h, lookup_find l (m + 1)]
      simp only [Bool.false_eq_true, if_false, Option.map_map]
      congr 1
      funext i
      simp only [Function.comp]
      omega

theorem function?_find {bd : Bundle} {name : Str} {α : Type} {l : List α} {g : α → Str} {k : α → Function}
    (hn : bd.nameToFunc = l.zipIdx.map fun p => (g p.1, p.2)) (hf : bd.functions = l.map k) :
    bd.function? name = (l.find? fun x => g x == name).map k := by
  unfold Bundle.function? Bundle.findFunction
  rw [hn, hf, lookup_find l 0, List.find?_eq_bind_findIdx?_getElem?]
  cases l.findIdx? fun x => g x == name with
  | none => rfl
  | some i =>
    show (l.map k)[i + 0]? = _
    rw [List.getElem?_map]
    rfl

theorem find_perm {α : Type} {name : Str} {g : α → Str} {l l' : List α} (hp : l'.Perm l) (hd : (l.map g).Nodup) :
    (l'.find? fun x => g x == name) = l.find? fun x => g x == name := by
  induction hp with
  | nil => rfl
  | cons x _ ih =>
    rw [List.map_cons, List.nodup_cons] at hd
    rw [List.find?_cons, List.find?_cons, ih hd.2]
  | swap x y l =>
    rw [List.map_cons, List.map_cons, List.nodup_cons] at hd
    have hne : g x ≠ g y := fun h => hd.1 (h ▸ List.mem_cons_self ..)
    rw [List.find?_cons, List.find?_cons, List.find?_cons, List.find?_cons]
    by_cases hx : g x = name
    · rw [beq_iff_eq.mpr hx, beq_eq_false_iff_ne.mpr (fun h => hne (hx.trans h.symm))]
    · rw [beq_eq_false_iff_ne.mpr hx]
  | trans h1 h2 ih1 ih2 =>
    rw [ih1 ((h2.map g).nodup_iff.mpr hd), ih2 hd]

/-- A bundle whose functions have different names, listed in another order with another
numbering, is `Renumbered`. -/
theorem Bundle.relist_renumbered {bd : Bundle} (P : Numbering bd.localCount) {fs : List Function}
    (hn : bd.nameToFunc = bd.functions.zipIdx.map fun p => (p.1.name, p.2))
    (hd : (bd.functions.map Function.name).Nodup) (hp : fs.Perm bd.functions) : Renumbered bd (bd.relist P fs) P where
  strings := rfl
  localCount := rfl
  plans := rfl
  nameToPlan := rfl
  queryPlan := rfl
  functions f hf := by
    obtain ⟨g, hg, rfl⟩ := List.mem_map.mp hf
    exact ⟨g, hp.mem_iff.mp hg, rfl⟩
  lookup name := by
    rw [function?_find (bd := bd.relist P fs) (l := fs) (g := Function.name) (k := P.func) rfl rfl,
      function?_find (bd := bd) (l := bd.functions) (g := Function.name) (k := id) hn (by rw [List.map_id]),
      find_perm hp hd, Option.map_id]
    rfl
  names name := by
    unfold Bundle.isFunction
    rw [hn]
    show (((fs.zipIdx 0).map fun p => (p.1.name, p.2)).lookup name).isSome = _
    rw [lookup_find, lookup_find, Option.isSome_map, Option.isSome_map, List.findIdx?_isSome, List.findIdx?_isSome]
    exact hp.any_eq
  range p hm := by
    obtain ⟨q, hq, rfl⟩ := List.mem_map.mp hm
    show q.2 < (fs.map P.func).length
    rw [List.length_map]
    exact (List.mem_zipIdx' hq).1

namespace VM.Witness

/-- Another function. -/
def fnY : Function := { fnX with name := "g".toList, result := 7 }

/-- A bundle with two functions; its plan calls the first one. -/
def two : Bundle := onePlan ["result", "x"] 10
  (.mk .call nop nop 2 (.call "f".toList [loc 0, loc 1]) :: emit) [fnX, fnY]

/-- The locals 2 and 6 exchanged, and the functions in the other order. -/
def two' : Bundle := two.relist (.swap 2 6 (by decide) (by decide) (by decide)) [fnY, fnX]

theorem two_renumbered : Renumbered two two' (.swap 2 6 (by decide) (by decide) (by decide)) :=
  Bundle.relist_renumbered _ rfl (by decide +kernel) (List.Perm.swap ..)

/-- The plan of the renumbered bundle differs, and its functions are found elsewhere; the
output is the same. -/
example : two'.findFunction "f".toList = some 1 ∧ two.findFunction "f".toList = some 0 ∧
    evalEntrypoint (ctx two') none (some inX) () "p".toList = .output (.results [([.leaf (.int ['1'])], [])]) ∧
    evalEntrypoint (ctx two) none (some inX) () "p".toList = .output (.results [([.leaf (.int ['1'])], [])]) := by
  decide +kernel

end VM.Witness

end Verif
