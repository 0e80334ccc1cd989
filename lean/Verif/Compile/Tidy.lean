import Verif.Compile.Frame
import Verif.Compile.Rules
import Verif.Copy.Disc

/-!
# Generated code follows the discipline

The generated code changes collections in place only where they were made by the same
function and have not been read since (`Verif.Copy.Disc`).
-/

namespace Verif.Compile

open Verif.Copy

variable {lab : Nat → Option (Option Str)} {u : Option Str}

/-- Locals are read or written one after the other. -/
def closeAll (lab : Nat → Option (Option Str)) (u : Option Str) (F : List Nat) :
    List Nat → List Nat → Option (List Nat)
  | O, [] => some O
  | O, k :: ks => (close lab u F O k).bind fun O => closeAll lab u F O ks

theorem closeAll_append {F : List Nat} : ∀ {as bs O : List Nat},
    closeAll lab u F O (as ++ bs) = (closeAll lab u F O as).bind fun O => closeAll lab u F O bs
  | [], bs, O => rfl
  | a :: as, bs, O => by
    show (close lab u F O a).bind _ = ((close lab u F O a).bind _).bind _
    rcases close lab u F O a with _ | O'
    · rfl
    · exact closeAll_append

theorem closeAll_one {F O : List Nat} {k : Nat} : closeAll lab u F O [k] = close lab u F O k := by
  show (close lab u F O k).bind _ = _
  rcases close lab u F O k with _ | O' <;> rfl

theorem closeOp_eq {F O : List Nat} {op : Operand} : closeOp lab u F O op = closeAll lab u F O (opLoc op) := by
  unfold closeOp opLoc
  cases op.type with
  | loc => exact closeAll_one.symm
  | _ => rfl

theorem closeOps_eq {F : List Nat} : ∀ {ops : List Operand} {O : List Nat},
    closeOps lab u F O ops = closeAll lab u F O (ops.map opLoc).flatten
  | [], O => rfl
  | op :: ops, O => by
    show (closeOp lab u F O op).bind _ = _
    rw [List.map_cons, List.flatten_cons, closeAll_append, closeOp_eq]
    rcases closeAll lab u F O (opLoc op) with _ | O'
    · rfl
    · exact closeOps_eq

theorem closeAll_free {F : List Nat} : ∀ {ks O : List Nat}, (∀ k ∈ ks, touch lab u k = true ∧ k ∉ F) →
    ∃ O', closeAll lab u F O ks = some O' ∧ (∀ x ∈ O', x ∈ O) ∧ ∀ x ∈ O, x ∉ ks → x ∈ O'
  | [], O, _ => ⟨O, rfl, fun _ h => h, fun _ h _ => h⟩
  | k :: ks, O, h => by
    obtain ⟨h1, h2⟩ := h k (List.mem_cons_self ..)
    obtain ⟨O2, h3, h4, h5⟩ := closeAll_free (F := F) (ks := ks) (O := O.filter (· != k))
      fun x hx => h x (List.mem_cons_of_mem _ hx)
    refine ⟨O2, ?_, fun x hx => (List.mem_filter.mp (h4 x hx)).1, fun x hx hn => h5 x ?_ ?_⟩
    · show (close lab u F O k).bind _ = _
      unfold close
      rw [h1, show F.contains k = false from by
        rw [← Bool.not_eq_true]
        exact fun h => h2 (List.contains_iff_mem.mp h)]
      exact h3
    · refine List.mem_filter.mpr ⟨hx, ?_⟩
      simp only [bne_iff_ne, ne_eq]
      rintro rfl
      exact hn (List.mem_cons_self ..)
    · exact fun h => hn (List.mem_cons_of_mem _ h)

/-- Code is accepted, and what it does not use stays open. `T` are the collections the code
adds to. -/
def Keeps (lab : Nat → Option (Option Str)) (u : Option Str) (T : List Nat) (b : Block) : Prop :=
  ∀ F O, (∀ x ∈ F, x ∉ usesBlock b) → (∀ t ∈ T, t ∈ F ∨ t ∈ O) →
    ∃ O', discBlock lab u F O b = some O' ∧ ∀ x ∈ O, x ∉ usesBlock b → x ∈ O'

theorem discBlock_append {F : List Nat} : ∀ {a b : Block} {O : List Nat},
    discBlock lab u F O (a ++ b) = (discBlock lab u F O a).bind fun O => discBlock lab u F O b
  | [], b, O => by simp only [List.nil_append, discBlock, Option.bind_some]
  | x :: a, b, O => by
    simp only [List.cons_append, discBlock, Option.bind_assoc]
    rcases discStmt lab u F (before O x) x with _ | O'
    · rfl
    · exact discBlock_append

theorem usesBlock_append : ∀ {a b : Block}, usesBlock (a ++ b) = usesBlock a ++ usesBlock b
  | [], b => by simp only [List.nil_append, usesBlock]
  | x :: a, b => by
    simp only [List.cons_append, usesBlock, List.append_assoc]
    rw [usesBlock_append]

theorem usesBlock_one {x : Stmt} : usesBlock [x] = usesStmt x := by
  simp only [usesBlock, List.append_nil]

theorem Keeps.nil {T : List Nat} : Keeps lab u T [] :=
  fun _ O _ _ => ⟨O, by simp only [discBlock], fun _ h _ => h⟩

theorem Keeps.append {T : List Nat} {a b : Block} (ha : Keeps lab u T a)
    (hb : Keeps lab u T b) (hT : ∀ t ∈ T, t ∉ usesBlock a) : Keeps lab u T (a ++ b) := by
  intro F O hF ht
  rw [usesBlock_append] at hF
  obtain ⟨O1, h1, h2⟩ := ha F O (fun x hx h => hF x hx (List.mem_append_left _ h)) ht
  obtain ⟨O2, h3, h4⟩ := hb F O1 (fun x hx h => hF x hx (List.mem_append_right _ h))
    fun t h => (ht t h).imp_right fun h' => h2 t h' (hT t h)
  refine ⟨O2, by rw [discBlock_append, h1]; exact h3, fun x hx hn => h4 x (h2 x hx fun h => ?_) fun h => ?_⟩
  · exact hn (by rw [usesBlock_append]; exact List.mem_append_left _ h)
  · exact hn (by rw [usesBlock_append]; exact List.mem_append_right _ h)

theorem Keeps.more {T T' : List Nat} {b : Block} (h : Keeps lab u T b) (hT : ∀ t ∈ T, t ∈ T') : Keeps lab u T' b :=
  fun F O hF ht => h F O hF fun t h => ht t (hT t h)

theorem before_eq {O : List Nat} {x : Stmt} (h : usesExt x.ext = []) : before O x = O := by
  unfold before
  rw [h]
  exact List.filter_eq_self.mpr fun _ _ => by simp

/-- A statement which only reads and writes locals. -/
theorem keeps_uses {T : List Nat} {x : Stmt} (hn : usesExt x.ext = [])
    (hx : ∀ F O, discStmt lab u F O x = closeAll lab u F O (usesStmt x))
    (hk : ∀ k ∈ usesStmt x, touch lab u k = true) : Keeps lab u T [x] := by
  intro F O hF _
  rw [usesBlock_one] at hF ⊢
  obtain ⟨O', h1, _, h2⟩ := closeAll_free (lab := lab) (u := u) (F := F) (O := O) (ks := usesStmt x)
    fun k h => ⟨hk k h, fun h' => hF k h' h⟩
  exact ⟨O', by simp only [discBlock, before_eq hn, hx, h1, Option.bind_some], h2⟩

/-- A statement which adds to an open collection. -/
theorem keeps_adds {t : Nat} {T : List Nat} {x : Stmt} (hn : usesExt x.ext = [])
    (hx : ∀ F O, discStmt lab u F O x = (closeAll lab u F O (usesStmt x)).bind fun O => change F O t)
    (hk : ∀ k ∈ usesStmt x, touch lab u k = true) (ht : t ∈ T) (htu : t ∉ usesStmt x) : Keeps lab u T [x] := by
  intro F O hF hT
  rw [usesBlock_one] at hF ⊢
  obtain ⟨O', h1, _, h2⟩ := closeAll_free (lab := lab) (u := u) (F := F) (O := O) (ks := usesStmt x)
    fun k h => ⟨hk k h, fun h' => hF k h' h⟩
  refine ⟨O', ?_, h2⟩
  have : change F O' t = some O' := by
    unfold change
    rcases hT t ht with h | h
    · rw [List.contains_iff_mem.mpr h]
      rfl
    · rw [List.contains_iff_mem.mpr (h2 t h htu)]
      simp
  simp only [discBlock, before_eq hn, hx, h1, Option.bind_some, this]

/-- A statement with nested blocks. -/
theorem keeps_nest {T ks : List Nat} {x : Stmt}
    (hx : ∀ F O, discStmt lab u F O x = (closeAll lab u F O ks).bind fun O =>
      if discExt lab u (F ++ O) x.ext then some O else none)
    (hu : usesStmt x = ks ++ usesExt x.ext)
    (hb : ∀ F, (∀ x' ∈ F, x' ∉ usesExt x.ext) → (∀ t ∈ T, t ∈ F) → discExt lab u F x.ext = true)
    (hk : ∀ k ∈ ks, touch lab u k = true) (hT : ∀ t ∈ T, t ∉ usesStmt x) : Keeps lab u T [x] := by
  intro F O hF ht
  rw [usesBlock_one] at hF ⊢
  rw [hu] at hF hT ⊢
  obtain ⟨O', h1, h2, h3⟩ := closeAll_free (lab := lab) (u := u) (F := F) (O := before O x) (ks := ks)
    fun k h => ⟨hk k h, fun h' => hF k h' (List.mem_append_left _ h)⟩
  have hbf : ∀ y, y ∈ before O x ↔ y ∈ O ∧ y ∉ usesExt x.ext := by
    intro y
    unfold before
    rw [List.mem_filter]
    simp
  refine ⟨O', ?_, fun y hy hn => h3 y ((hbf y).mpr ⟨hy, fun h => hn (List.mem_append_right _ h)⟩)
    fun h => hn (List.mem_append_left _ h)⟩
  have : discExt lab u (F ++ O') x.ext = true := by
    refine hb _ (fun y hy => ?_) fun t hT' => ?_
    · rcases List.mem_append.mp hy with h | h
      · exact fun h' => hF y h (List.mem_append_right _ h')
      · exact ((hbf y).mp (h2 y h)).2
    · rcases ht t hT' with h | h
      · exact List.mem_append_left _ h
      · exact List.mem_append_right _ (h3 t ((hbf t).mpr ⟨h, fun h => hT t hT' (List.mem_append_right _ h)⟩)
          fun h => hT t hT' (List.mem_append_left _ h))
  simp only [discBlock, hx, h1, Option.bind_some, this, if_true]

/-- A nested block. -/
theorem Keeps.nested {T : List Nat} {b : Block} (h : Keeps lab u T b) {F : List Nat}
    (hF : ∀ x ∈ F, x ∉ usesBlock b) (hT : ∀ t ∈ T, t ∈ F) : (discBlock lab u F [] b).isSome = true := by
  obtain ⟨O', h1, _⟩ := h F [] hF (fun t h => .inl (hT t h))
  rw [h1]
  rfl

/-- A collection is made and added to. -/
theorem keeps_make {n : Nat} {T : List Nat} {x : Stmt} {b : Block} (hn : usesExt x.ext = [])
    (hx : ∀ F O, discStmt lab u F O x = openAt lab u F O n) (hu : usesStmt x = [n]) (hl : lab n = some u)
    (hT : n ∉ T) (hb : Keeps lab u (n :: T) b) : Keeps lab u T (x :: b) := by
  intro F O hF ht
  have hux : usesBlock (x :: b) = n :: usesBlock b := by simp only [usesBlock, hu, List.cons_append, List.nil_append]
  rw [hux] at hF ⊢
  have htn : touch lab u n = true := by
    unfold touch
    rw [hl]
    simp
  obtain ⟨O', h1, _, h2⟩ := closeAll_free (lab := lab) (u := u) (F := F) (O := O) (ks := [n])
    fun k h => by
      rw [List.mem_singleton.mp h]
      exact ⟨htn, fun h' => hF n h' (List.mem_cons_self ..)⟩
  rw [closeAll_one] at h1
  have hopen : discStmt lab u F O x = some (n :: O') := by
    rw [hx]
    unfold openAt
    rw [h1, hl]
    simp
  obtain ⟨O2, h3, h4⟩ := hb F (n :: O') (fun y hy h => hF y hy (List.mem_cons_of_mem _ h))
    (fun t ht' => by
      rcases List.mem_cons.mp ht' with rfl | ht'
      · exact .inr (List.mem_cons_self ..)
      · rcases ht t ht' with h | h
        · exact .inl h
        · refine .inr (List.mem_cons_of_mem _ (h2 t h fun h' => ?_))
          rw [List.mem_singleton.mp h'] at ht'
          exact hT ht')
  refine ⟨O2, by simp only [discBlock, before_eq hn, hopen, Option.bind_some, h3], fun y hy hyn =>
    h4 y (List.mem_cons_of_mem _ (h2 y hy fun h => hyn ?_)) fun h => hyn (List.mem_cons_of_mem _ h)⟩
  rw [List.mem_singleton.mp h]
  exact List.mem_cons_self ..

/-! ## Zones -/

/-- Local `k` belongs to no unit if it is a document, and to unit `u` from `lo` to `top`;
the variables are those from `lo` to `hi`. -/
structure Zone (lab : Nat → Option (Option Str)) (u : Option Str) (lo hi top : Nat) : Prop where
  doc : ∀ k < 2, lab k = none
  own : ∀ k, lo ≤ k → k < top → lab k = some u
  two : 2 ≤ lo
  vars : lo ≤ hi
  big : top ≤ 2 ^ 63

/-- The locals code may use: documents, variables, and temporaries from `p` to `c`. -/
def Free (lo hi p c k : Nat) : Prop := k < 2 ∨ (lo ≤ k ∧ k < hi) ∨ (p ≤ k ∧ k < c)

variable {lo hi top : Nat}

theorem Free.touch (Z : Zone lab u lo hi top) {p c k : Nat} (h : Free lo hi p c k) (hp : hi ≤ p) (hh : hi ≤ top)
    (hc : c ≤ top) : touch lab u k = true := by
  have h1 := Z.vars
  unfold Copy.touch
  rcases h with h | h | h
  · rw [Z.doc k h]
    rfl
  · rw [Z.own k h.1 (by omega)]
    simp
  · rw [Z.own k (by omega) (by omega)]
    simp

theorem Free.mono {p p' c c' k : Nat} (h : Free lo hi p c k) (hp : p' ≤ p) (hc : c ≤ c') : Free lo hi p' c' k := by
  rcases h with h | h | h
  · exact .inl h
  · exact .inr (.inl h)
  · exact .inr (.inr ⟨by omega, by omega⟩)

/-- Code for unit `u` with temporaries from `p` to `c`. -/
structure Tidy (lab : Nat → Option (Option Str)) (u : Option Str) (lo hi : Nat) (T : List Nat) (p c : Nat) (b : Block) :
    Prop where
  uses : ∀ k ∈ usesBlock b, Free lo hi p c k
  keeps : Keeps lab u T b

theorem Tidy.nil {T : List Nat} {p c : Nat} : Tidy lab u lo hi T p c [] :=
  ⟨fun _ h => by simp [usesBlock] at h, .nil⟩

theorem not_free {lo hi p c t : Nat} {us : List Nat} (h : ∀ k ∈ us, Free lo hi p c k) (h2 : 2 ≤ lo) (hlh : lo ≤ hi)
    (ht : hi ≤ t ∧ t < p) : t ∉ us := fun hm => by
  rcases h t hm with h | h | h <;> omega

theorem Tidy.append (Z : Zone lab u lo hi top) {T : List Nat} {p c : Nat} {a b : Block}
    (ha : Tidy lab u lo hi T p c a) (hb : Tidy lab u lo hi T p c b) (hT : ∀ t ∈ T, hi ≤ t ∧ t < p) :
    Tidy lab u lo hi T p c (a ++ b) where
  uses k hk := by
    rw [usesBlock_append] at hk
    rcases List.mem_append.mp hk with h | h
    · exact ha.uses k h
    · exact hb.uses k h
  keeps := ha.keeps.append hb.keeps fun t ht => not_free ha.uses Z.two Z.vars (hT t ht)

theorem Tidy.weaken {T T' : List Nat} {p p' c c' : Nat} {b : Block} (h : Tidy lab u lo hi T p c b) (hp : p' ≤ p)
    (hc : c ≤ c') (hT : ∀ t ∈ T, t ∈ T') : Tidy lab u lo hi T' p' c' b :=
  ⟨fun k hk => (h.uses k hk).mono hp hc, h.keeps.more hT⟩

/-- A statement which only reads and writes locals. -/
theorem tidy_uses (Z : Zone lab u lo hi top) {T : List Nat} {p c : Nat} {x : Stmt} (hn : usesExt x.ext = [])
    (hx : ∀ F O, discStmt lab u F O x = closeAll lab u F O (usesStmt x))
    (hk : ∀ k ∈ usesStmt x, Free lo hi p c k) (hp : hi ≤ p) (hh : hi ≤ top) (hc : c ≤ top) :
    Tidy lab u lo hi T p c [x] where
  uses := by rw [usesBlock_one]; exact hk
  keeps := keeps_uses hn hx fun k h => (hk k h).touch Z hp hh hc

/-- A statement which adds to an open collection. -/
theorem tidy_adds (Z : Zone lab u lo hi top) {t : Nat} {T : List Nat} {p c : Nat} {x : Stmt} (hn : usesExt x.ext = [])
    (hx : ∀ F O, discStmt lab u F O x = (closeAll lab u F O (usesStmt x)).bind fun O => change F O t)
    (hk : ∀ k ∈ usesStmt x, Free lo hi p c k) (ht : t ∈ T) (ht' : hi ≤ t ∧ t < p) (hp : hi ≤ p) (hh : hi ≤ top)
    (hc : c ≤ top) : Tidy lab u lo hi T p c [x] where
  uses := by rw [usesBlock_one]; exact hk
  keeps := keeps_adds hn hx (fun k h => (hk k h).touch Z hp hh hc) ht (not_free hk Z.two Z.vars ht')

/-- A statement with nested blocks. -/
theorem tidy_nest (Z : Zone lab u lo hi top) {T ks : List Nat} {p c : Nat} {x : Stmt}
    (hx : ∀ F O, discStmt lab u F O x = (closeAll lab u F O ks).bind fun O =>
      if discExt lab u (F ++ O) x.ext then some O else none)
    (hu : usesStmt x = ks ++ usesExt x.ext)
    (hb : ∀ F, (∀ x' ∈ F, x' ∉ usesExt x.ext) → (∀ t ∈ T, t ∈ F) → discExt lab u F x.ext = true)
    (hk : ∀ k ∈ ks, Free lo hi p c k) (hk' : ∀ k ∈ usesExt x.ext, Free lo hi p c k)
    (hT : ∀ t ∈ T, hi ≤ t ∧ t < p) (hp : hi ≤ p) (hh : hi ≤ top)
    (hc : c ≤ top) : Tidy lab u lo hi T p c [x] := by
  have hall : ∀ k ∈ usesStmt x, Free lo hi p c k := by
    intro k h
    rw [hu] at h
    rcases List.mem_append.mp h with h | h
    · exact hk k h
    · exact hk' k h
  exact ⟨by rw [usesBlock_one]; exact hall, keeps_nest hx hu hb (fun k h => (hk k h).touch Z hp hh hc)
    fun t ht => not_free hall Z.two Z.vars (hT t ht)⟩

/-- A collection is made and added to. -/
theorem tidy_make (Z : Zone lab u lo hi top) {n p c : Nat} {T : List Nat} {x : Stmt} {b : Block}
    (hn : usesExt x.ext = []) (hx : ∀ F O, discStmt lab u F O x = openAt lab u F O n) (hu : usesStmt x = [n])
    (hp : hi ≤ p) (hpn : p ≤ n) (hnc : n < c) (hc : c ≤ top) (hT : ∀ t ∈ T, t < p)
    (hb : Tidy lab u lo hi (n :: T) (n + 1) c b) : Tidy lab u lo hi T p c (x :: b) where
  uses k hk := by
    simp only [usesBlock, hu, List.cons_append, List.nil_append] at hk
    rcases List.mem_cons.mp hk with rfl | h
    · exact .inr (.inr ⟨hpn, hnc⟩)
    · exact (hb.uses k h).mono (by omega) (Nat.le_refl _)
  keeps := keeps_make hn hx hu (Z.own n (by have := Z.vars; omega) (by omega))
    (fun h => by have := hT n h; omega) hb.keeps

/-! ## Statements -/

section

variable {F O : List Nat} {t : Nat} {op op' : Operand}

theorem disc_write {ty : StmtType} (h : ty = .makeNull ∨ ty = .makeNumberRef ∨ ty = .makeNumberInt ∨ ty = .resetLocal)
    {T : List Nat} {p c : Nat} (Z : Zone lab u lo hi top) (hk : Free lo hi p c t) (hp : hi ≤ p) (hh : hi ≤ top)
    (hc : c ≤ top) : Tidy lab u lo hi T p c [st ty t op] := by
  have hu : usesStmt (st ty t op) = [t] := by
    rcases h with rfl | rfl | rfl | rfl <;> simp only [st, usesStmt, idx_cast]
  refine tidy_uses Z (by simp only [st, Stmt.ext, usesExt]) (fun F O => ?_) (fun k h => ?_) hp hh hc
  · rw [hu, closeAll_one]
    rcases h with rfl | rfl | rfl | rfl <;> simp only [st, discStmt, idx_cast]
  · rw [hu] at h
    rw [List.mem_singleton.mp h]
    exact hk

theorem disc_assign {ty : StmtType} (h : ty = .assignVar ∨ ty = .assignVarOnce ∨ ty = .len)
    {T : List Nat} {p c : Nat} (Z : Zone lab u lo hi top) (ho : ∀ k ∈ opLoc op, Free lo hi p c k)
    (hk : Free lo hi p c t) (hp : hi ≤ p) (hh : hi ≤ top)
    (hc : c ≤ top) : Tidy lab u lo hi T p c [st ty t op] := by
  have hu : usesStmt (st ty t op) = opLoc op ++ [t] := by
    rcases h with rfl | rfl | rfl <;> simp only [st, usesStmt, idx_cast]
  refine tidy_uses Z (by simp only [st, Stmt.ext, usesExt]) (fun F O => ?_) (fun k h => ?_) hp hh hc
  · rw [hu, closeAll_append, ← closeOp_eq]
    simp only [closeAll_one]
    rcases h with rfl | rfl | rfl <;> simp only [st, discStmt, idx_cast]
  · rw [hu] at h
    rcases List.mem_append.mp h with h | h
    · exact ho k h
    · rw [List.mem_singleton.mp h]
      exact hk

theorem disc_test {ty : StmtType} (h : ty = .isArray ∨ ty = .isObject)
    {T : List Nat} {p c : Nat} (Z : Zone lab u lo hi top) (ho : ∀ k ∈ opLoc op, Free lo hi p c k)
    (hp : hi ≤ p) (hh : hi ≤ top) (hc : c ≤ top) : Tidy lab u lo hi T p c [.mk ty op {} 0 .null] := by
  have hu : usesStmt (.mk ty op {} 0 .null) = opLoc op := by
    rcases h with rfl | rfl <;> simp only [usesStmt]
  refine tidy_uses Z (by simp only [Stmt.ext, usesExt]) (fun F O => ?_) (by rw [hu]; exact ho) hp hh hc
  rw [hu, ← closeOp_eq]
  rcases h with rfl | rfl <;> simp only [discStmt]

theorem disc_defined {ty : StmtType} (h : ty = .isDefined ∨ ty = .isUndefined ∨ ty = .returnLocal)
    {T : List Nat} {p c : Nat} (Z : Zone lab u lo hi top)
    (hp : hi ≤ p) (hh : hi ≤ top) (hc : c ≤ top) : Tidy lab u lo hi T p c [st ty t] := by
  have hu : usesStmt (st ty t) = [] := by
    rcases h with rfl | rfl | rfl <;> simp only [st, usesStmt]
  refine tidy_uses Z (by simp only [st, Stmt.ext, usesExt]) (fun F O => ?_) (by rw [hu]; exact fun _ h => by cases h)
    hp hh hc
  rw [hu]
  rcases h with rfl | rfl | rfl <;> simp only [st, discStmt, closeAll]

theorem disc_dot {T : List Nat} {p c : Nat} (Z : Zone lab u lo hi top) (ho : ∀ k ∈ opLoc op, Free lo hi p c k)
    (ho' : ∀ k ∈ opLoc op', Free lo hi p c k) (hk : Free lo hi p c t) (hp : hi ≤ p) (hh : hi ≤ top)
    (hc : c ≤ top) : Tidy lab u lo hi T p c [st .dot t op op'] := by
  have hu : usesStmt (st .dot t op op') = opLoc op ++ opLoc op' ++ [t] := by simp only [st, usesStmt, idx_cast]
  refine tidy_uses Z (by simp only [st, Stmt.ext, usesExt]) (fun F O => ?_) (fun k h => ?_) hp hh hc
  · rw [hu, closeAll_append, closeAll_append, ← closeOp_eq, Option.bind_assoc]
    simp only [closeAll_one, ← closeOp_eq]
    simp only [st, discStmt, idx_cast]
  · rw [hu] at h
    rcases List.mem_append.mp h with h | h
    · rcases List.mem_append.mp h with h | h
      · exact ho k h
      · exact ho' k h
    · rw [List.mem_singleton.mp h]
      exact hk

theorem disc_equal {ty : StmtType} (h : ty = .equal ∨ ty = .notEqual)
    {T : List Nat} {p c : Nat} (Z : Zone lab u lo hi top) (ho : ∀ k ∈ opLoc op, Free lo hi p c k)
    (ho' : ∀ k ∈ opLoc op', Free lo hi p c k) (hp : hi ≤ p) (hh : hi ≤ top)
    (hc : c ≤ top) : Tidy lab u lo hi T p c [.mk ty op op' 0 .null] := by
  have hu : usesStmt (.mk ty op op' 0 .null) = opLoc op ++ opLoc op' := by
    rcases h with rfl | rfl <;> simp only [usesStmt]
  refine tidy_uses Z (by simp only [Stmt.ext, usesExt]) (fun F O => ?_) (fun k h => ?_) hp hh hc
  · rw [hu, closeAll_append, ← closeOp_eq]
    simp only [← closeOp_eq]
    rcases h with rfl | rfl <;> simp only [discStmt]
  · rw [hu] at h
    rcases List.mem_append.mp h with h | h
    · exact ho k h
    · exact ho' k h

theorem disc_call {f : Str} {ops : List Operand}
    {T : List Nat} {p c : Nat} (Z : Zone lab u lo hi top) (ho : ∀ o ∈ ops, ∀ k ∈ opLoc o, Free lo hi p c k)
    (hk : Free lo hi p c t) (hp : hi ≤ p) (hh : hi ≤ top)
    (hc : c ≤ top) : Tidy lab u lo hi T p c [callStmt f ops t] := by
  have hu : usesStmt (callStmt f ops t) = (ops.map opLoc).flatten ++ [t] := by
    simp only [callStmt, usesStmt, idx_cast]
  refine tidy_uses Z (by simp only [callStmt, Stmt.ext, usesExt]) (fun F O => ?_) (fun k h => ?_) hp hh hc
  · rw [hu, closeAll_append, ← closeOps_eq]
    simp only [closeAll_one]
    simp only [callStmt, discStmt, idx_cast]
  · rw [hu] at h
    rcases List.mem_append.mp h with h | h
    · obtain ⟨l, hl, h⟩ := List.mem_flatten.mp h
      obtain ⟨o, ho1, rfl⟩ := List.mem_map.mp hl
      exact ho o ho1 k h
    · rw [List.mem_singleton.mp h]
      exact hk

theorem disc_add {ty : StmtType} (h : ty = .arrayAppend ∨ ty = .setAdd)
    {T : List Nat} {p c : Nat} (Z : Zone lab u lo hi top) (ho : ∀ k ∈ opLoc op, Free lo hi p c k)
    (ht : t ∈ T) (ht' : hi ≤ t ∧ t < p) (hp : hi ≤ p) (hh : hi ≤ top)
    (hc : c ≤ top) : Tidy lab u lo hi T p c [st ty t op] := by
  have hu : usesStmt (st ty t op) = opLoc op := by
    rcases h with rfl | rfl <;> simp only [st, usesStmt]
  refine tidy_adds Z (by simp only [st, Stmt.ext, usesExt]) (fun F O => ?_) (by rw [hu]; exact ho) ht ht' hp hh hc
  rw [hu, ← closeOp_eq]
  rcases h with rfl | rfl <;> simp only [st, discStmt, idx_cast]

theorem disc_insert {ty : StmtType} (h : ty = .objectInsert ∨ ty = .objectInsertOnce)
    {T : List Nat} {p c : Nat} (Z : Zone lab u lo hi top) (ho : ∀ k ∈ opLoc op, Free lo hi p c k)
    (ho' : ∀ k ∈ opLoc op', Free lo hi p c k) (ht : t ∈ T) (ht' : hi ≤ t ∧ t < p) (hp : hi ≤ p) (hh : hi ≤ top)
    (hc : c ≤ top) : Tidy lab u lo hi T p c [st ty t op op'] := by
  have hu : usesStmt (st ty t op op') = opLoc op ++ opLoc op' := by
    rcases h with rfl | rfl <;> simp only [st, usesStmt]
  refine tidy_adds Z (by simp only [st, Stmt.ext, usesExt]) (fun F O => ?_) (fun k h => ?_) ht ht' hp hh hc
  · rw [hu, closeAll_append, ← closeOp_eq, Option.bind_assoc]
    simp only [← closeOp_eq]
    rcases h with rfl | rfl <;> simp only [st, discStmt, idx_cast]
  · rw [hu] at h
    rcases List.mem_append.mp h with h | h
    · exact ho k h
    · exact ho' k h

theorem disc_make {ty : StmtType} (h : ty = .makeArray ∨ ty = .makeSet ∨ ty = .makeObject)
    (Z : Zone lab u lo hi top) {n p c : Nat} {T : List Nat} {b : Block}
    (hp : hi ≤ p) (hpn : p ≤ n) (hnc : n < c) (hc : c ≤ top) (hT : ∀ t ∈ T, t < p)
    (hb : Tidy lab u lo hi (n :: T) (n + 1) c b) : Tidy lab u lo hi T p c (st ty n :: b) := by
  refine tidy_make Z (by simp only [st, Stmt.ext, usesExt]) (fun F O => ?_) ?_ hp hpn hnc hc hT hb
  · rcases h with rfl | rfl | rfl <;> simp only [st, discStmt, idx_cast]
  · rcases h with rfl | rfl | rfl <;> simp only [st, usesStmt, idx_cast]

theorem disc_blocks {bs : List Block} (Z : Zone lab u lo hi top) {p c : Nat} {T : List Nat}
    (hT : ∀ t ∈ T, hi ≤ t ∧ t < p) (hp : hi ≤ p) (hh : hi ≤ top) (hc : c ≤ top)
    (hb : ∀ b ∈ bs, Tidy lab u lo hi T p c b) : Tidy lab u lo hi T p c [.mk .block {} {} 0 (.blocks bs)] := by
  refine tidy_nest Z (ks := []) (fun F O => ?_) ?_ (fun F hF hT => ?_) (fun _ h => by cases h) ?_ hT hp hh hc
  · simp only [discStmt, Stmt.ext, closeAll, Option.bind_some]
    rfl
  · simp only [usesStmt, Stmt.ext, List.nil_append]
  · simp only [Stmt.ext, usesExt, discExt] at hF ⊢
    clear hp hh hc
    induction bs with
    | nil => simp only [discBlocks]
    | cons b bs ih =>
      simp only [usesBlocks, List.mem_append, not_or] at hF
      simp only [discBlocks, Bool.and_eq_true]
      exact ⟨(hb b (List.mem_cons_self ..)).keeps.nested (fun x hx => (hF x hx).1) hT,
        ih (fun b h => hb b (List.mem_cons_of_mem _ h)) fun x hx => (hF x hx).2⟩
  · simp only [Stmt.ext, usesExt]
    clear hp hh hc
    induction bs with
    | nil => simp [usesBlocks]
    | cons b bs ih =>
      intro k hk
      simp only [usesBlocks, List.mem_append] at hk
      rcases hk with h | h
      · exact (hb b (List.mem_cons_self ..)).uses k h
      · exact ih (fun b h => hb b (List.mem_cons_of_mem _ h)) k h

theorem disc_not {b : Block} (Z : Zone lab u lo hi top) {p c : Nat} {T : List Nat}
    (hT : ∀ t ∈ T, hi ≤ t ∧ t < p) (hp : hi ≤ p) (hh : hi ≤ top) (hc : c ≤ top)
    (hb : Tidy lab u lo hi T p c b) : Tidy lab u lo hi T p c [notStmt b] := by
  refine tidy_nest Z (ks := []) (fun F O => ?_) ?_ (fun F hF hT => ?_) (fun _ h => by cases h) ?_ hT hp hh hc
  · simp only [notStmt, discStmt, Stmt.ext, closeAll, Option.bind_some]
    rfl
  · simp only [notStmt, usesStmt, Stmt.ext, List.nil_append]
  · simp only [notStmt, Stmt.ext, usesExt, discExt] at hF ⊢
    exact hb.keeps.nested hF hT
  · simp only [notStmt, Stmt.ext, usesExt]
    exact hb.uses

theorem disc_scan {src k v : Nat} {b : Block} (Z : Zone lab u lo hi top) {p c : Nat} {T : List Nat}
    (hs : Free lo hi p c src) (hk : Free lo hi p c k) (hv : Free lo hi p c v) (hkb : k < 2 ^ 63) (hvb : v < 2 ^ 63)
    (hT : ∀ t ∈ T, hi ≤ t ∧ t < p) (hp : hi ≤ p) (hh : hi ≤ top) (hc : c ≤ top)
    (hb : Tidy lab u lo hi T p c b) : Tidy lab u lo hi T p c [scanStmt src k v b] := by
  refine tidy_nest Z (ks := [src, k, v]) (fun F O => ?_) ?_ (fun F hF hT => ?_) (fun x h => ?_) ?_ hT hp hh hc
  · simp only [scanStmt, discStmt, Stmt.ext, closeAll, idx_cast, loc_index hkb, loc_index hvb, Option.bind_assoc,
      Option.bind_some]
    rfl
  · simp only [scanStmt, usesStmt, Stmt.ext, idx_cast, loc_index hkb, loc_index hvb]
  · simp only [scanStmt, Stmt.ext, usesExt, discExt] at hF ⊢
    exact hb.keeps.nested hF hT
  · simp only [List.mem_cons, List.not_mem_nil, or_false] at h
    rcases h with rfl | rfl | rfl
    · exact hs
    · exact hk
    · exact hv
  · simp only [scanStmt, Stmt.ext, usesExt]
    exact hb.uses

theorem disc_with {d : Nat} {path : List Nat} {b : Block} (Z : Zone lab u lo hi top) {p c : Nat} {T : List Nat}
    (ho : ∀ k ∈ opLoc op, Free lo hi p c k) (hd : Free lo hi p c d)
    (hT : ∀ t ∈ T, hi ≤ t ∧ t < p) (hp : hi ≤ p) (hh : hi ≤ top) (hc : c ≤ top)
    (hb : Tidy lab u lo hi T p c b) : Tidy lab u lo hi T p c [.mk .with_ op {} d (.with_ path b)] := by
  refine tidy_nest Z (ks := opLoc op ++ [d]) (fun F O => ?_) ?_ (fun F hF hT => ?_) (fun x h => ?_) ?_ hT hp hh hc
  · rw [closeAll_append, ← closeOp_eq, Option.bind_assoc]
    simp only [closeAll_one]
    simp only [discStmt, Stmt.ext, idx_cast]
    rfl
  · simp only [usesStmt, Stmt.ext, idx_cast]
  · simp only [Stmt.ext, usesExt, discExt] at hF ⊢
    exact hb.keeps.nested hF hT
  · rcases List.mem_append.mp h with h | h
    · exact ho x h
    · rw [List.mem_singleton.mp h]
      exact hd
  · simp only [Stmt.ext, usesExt]
    exact hb.uses

end

end Verif.Compile
