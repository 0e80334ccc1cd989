import Verif.CApi.Spec
import Verif.Collections.Sets

/-!
# Lemmas about the input builder
-/

namespace Verif.CApi

open Verif.BigInt (dec)
open Verif.Collections

/-- Running the calls pushes the entries (the last one on top), and every call succeeds. -/
def Pushes (L : Lib) (cs : List Cmd) (es : List Entry) : Prop :=
  ∀ s, run L ⟨s, .ok⟩ cs = (⟨es.reverse ++ s, .ok⟩, List.replicate cs.length .ok)

theorem run_append (L : Lib) (a b : List Cmd) (i : Input) :
    run L i (a ++ b) = ((run L (run L i a).1 b).1, (run L i a).2 ++ (run L (run L i a).1 b).2) := by
  induction a generalizing i with
  | nil => rfl
  | cons c cs ih => simp only [List.cons_append, run, ih]

theorem Pushes.append {L : Lib} {a b : List Cmd} {es fs : List Entry} (h : Pushes L a es)
    (h' : Pushes L b fs) : Pushes L (a ++ b) (es ++ fs) := by
  intro s
  rw [run_append, h s]
  dsimp only
  rw [h' _, List.length_append, List.replicate_add, List.reverse_append, List.append_assoc]

theorem Pushes.nil (L : Lib) : Pushes L [] [] := fun _ => rfl

/-- A last call that replaces the entries by one. -/
theorem Pushes.last {L : Lib} {a : List Cmd} {es : List Entry} {c : Cmd} {e : Entry}
    (h : Pushes L a es) (hc : ∀ s, step L ⟨es.reverse ++ s, .ok⟩ c = (⟨e :: s, .ok⟩, .ok)) :
    Pushes L (a ++ [c]) [e] := by
  intro s
  rw [run_append, h s]
  dsimp only [run]
  rw [hc s, List.length_append, List.replicate_add]
  rfl

theorem pushes_one {L : Lib} {c : Cmd} {v : Val}
    (h : ∀ i, step L i c = push i v) : Pushes L [c] [.val v] := by
  intro s
  simp [run, h, push]

theorem allVals_map (vs : List Val) : allVals (vs.map .val) = some vs := by
  induction vs with
  | nil => rfl
  | cons v vs ih => simp [allVals, ih, Entry.val?]

theorem allItems_map (kvs : List (Val × Val)) :
    allItems (kvs.map fun p => .item p.1 p.2) = some kvs := by
  induction kvs with
  | nil => rfl
  | cons v vs ih => simp [allItems, ih, Entry.item?]

theorem take_rev {α : Type} (es s : List α) : (es.reverse ++ s).take es.length = es.reverse := by
  rw [List.take_append_of_le_length (by simp), List.take_of_length_le (by simp)]

theorem drop_rev {α : Type} (es s : List α) : (es.reverse ++ s).drop es.length = s := by
  rw [← List.length_reverse, List.drop_left]

theorem step_array (L : Lib) (vs : List Val) (s : List Entry) :
    step L ⟨(vs.map Entry.val).reverse ++ s, .ok⟩ (.array vs.length) = (⟨.val (.arr vs) :: s, .ok⟩, .ok) := by
  have hl : vs.length = (vs.map Entry.val).length := by simp
  unfold step guarded array
  rw [hl]
  dsimp only
  rw [if_neg (by rw [List.length_append, List.length_reverse]; exact Nat.not_lt.mpr (Nat.le_add_right _ _)),
    if_neg (by simp), take_rev, drop_rev, List.reverse_reverse, allVals_map]

theorem step_set (L : Lib) (vs : List Val) (s : List Entry) :
    step L ⟨(vs.map Entry.val).reverse ++ s, .ok⟩ (.set vs.length) =
      (⟨.val (.set (makeSet L vs)) :: s, .ok⟩, .ok) := by
  have hl : vs.length = (vs.map Entry.val).length := by simp
  unfold step guarded set
  rw [hl]
  dsimp only
  rw [if_neg (by rw [List.length_append, List.length_reverse]; exact Nat.not_lt.mpr (Nat.le_add_right _ _)),
    if_neg (by simp), take_rev, drop_rev, List.reverse_reverse, allVals_map]

theorem step_object (L : Lib) (kvs : List (Val × Val)) (s : List Entry) :
    step L ⟨(kvs.map fun p => Entry.item p.1 p.2).reverse ++ s, .ok⟩ (.object kvs.length) =
      (⟨.val (.obj kvs) :: s, .ok⟩, .ok) := by
  have hl : kvs.length = (kvs.map fun p => Entry.item p.1 p.2).length := by simp
  unfold step guarded object
  rw [hl]
  dsimp only
  rw [if_neg (by rw [List.length_append, List.length_reverse]; exact Nat.not_lt.mpr (Nat.le_add_right _ _)),
    if_neg (by simp), take_rev, drop_rev, List.reverse_reverse, if_neg (by simp [Entry.isItem]), allItems_map]

theorem step_item (L : Lib) (k v : Val) (s : List Entry) :
    step L ⟨[Entry.val k, .val v].reverse ++ s, .ok⟩ .objectItem = (⟨.item k v :: s, .ok⟩, .ok) := by
  unfold step guarded
  dsimp only
  rw [if_neg (by simp)]
  rfl

/-! ## Values without sets -/

mutual

theorem prog_exact (L : Lib) : ∀ (v : Val) (cs : List Cmd), Prog v cs → NoSet v → Pushes L cs [.val v]
  | .leaf l, cs, h, _ => by
    cases h <;> exact pushes_one (fun i => rfl)
  | .arr xs, cs, h, hn => by
    cases h with
    | arr h hl => exact (progs_exact L xs _ h (by simpa [NoSet] using hn)).last (step_array L xs)
  | .set xs, cs, h, hn => by simp [NoSet] at hn
  | .obj kvs, cs, h, hn => by
    cases h with
    | obj h hl => exact (progItems_exact L kvs _ h (by simpa [NoSet] using hn)).last (step_object L kvs)

theorem progs_exact (L : Lib) : ∀ (xs : List Val) (cs : List Cmd), Progs xs cs → NoSets xs →
    Pushes L cs (xs.map .val)
  | [], cs, h, _ => by cases h; exact Pushes.nil L
  | x :: xs, cs, h, hn => by
    cases h with
    | cons h hs => exact (prog_exact L x _ h hn.1).append (progs_exact L xs _ hs hn.2)

theorem progItems_exact (L : Lib) : ∀ (kvs : List (Val × Val)) (cs : List Cmd), ProgItems kvs cs →
    NoSetKVs kvs → Pushes L cs (kvs.map fun p => .item p.1 p.2)
  | [], cs, h, _ => by cases h; exact Pushes.nil L
  | (k, v) :: kvs, cs, h, hn => by
    cases h with
    | cons hk hv hs =>
      exact (((prog_exact L k _ hk hn.1).append (prog_exact L v _ hv hn.2.1)).last
        (step_item L k v)).append (progItems_exact L kvs _ hs hn.2.2)

end

/-! ## Well-formed values -/

theorem set_build (L : Lib) {vs xs : List Val} (hv : ∀ v ∈ vs, v.WF) (hx : ∀ x ∈ xs, x.WF)
    (hs : Sortable vs) (h : List.Forall₂ Same vs xs) :
    (Val.set (makeSet L vs)).WF ∧ Same (.set (makeSet L vs)) (.set xs) := by
  obtain ⟨⟨hw, hp⟩, hm⟩ := C22_make_partial L vs hv
  have hr : ∀ v ∈ vs, ∃ x ∈ xs, Same v x := by
    clear hv hx hw hp hm hs
    induction h with
    | nil => simp
    | cons a _ ih =>
      intro v hv
      rcases List.mem_cons.mp hv with rfl | hv
      · exact ⟨_, List.mem_cons_self, a⟩
      · obtain ⟨x, hx, e⟩ := ih v hv
        exact ⟨x, List.mem_cons_of_mem _ hx, e⟩
  have hl : ∀ x ∈ xs, ∃ v ∈ vs, Same v x := by
    clear hv hx hw hp hm hr hs
    induction h with
    | nil => simp
    | cons a _ ih =>
      intro v hv
      rcases List.mem_cons.mp hv with rfl | hv
      · exact ⟨_, List.mem_cons_self, a⟩
      · obtain ⟨x, hx, e⟩ := ih v hv
        exact ⟨x, List.mem_cons_of_mem _ hx, e⟩
  refine ⟨by rw [Val.WF, wfs_iff]; exact ⟨hw, hp, hs.mono (makeSet_sub L)⟩, ?_⟩
  rw [same_set]
  constructor
  · intro x hxm
    obtain ⟨v, hvm, e⟩ := (hm x (hw x hxm)).mp ⟨x, hxm, same_refl (hw x hxm)⟩
    obtain ⟨y, hy, e'⟩ := hr v hvm
    exact ⟨y, hy, same_trans (hw x hxm) (hv v hvm) (hx y hy) (same_symm (hv v hvm) (hw x hxm) e) e'⟩
  · intro y hy
    obtain ⟨v, hvm, e⟩ := hl y hy
    obtain ⟨x, hxm, e'⟩ := (hm v (hv v hvm)).mpr ⟨v, hvm, same_refl (hv v hvm)⟩
    exact ⟨x, hxm, same_trans (hw x hxm) (hv v hvm) (hx y hy) e' e⟩

theorem forall2_obj {a b : List (Val × Val)}
    (h : List.Forall₂ (fun p q : Val × Val => p.1 = q.1 ∧ Same p.2 q.2) a b)
    (hb : ∀ q ∈ b, q.1.WF) : Same (.obj a) (.obj b) := by
  rw [same_obj]
  induction h with
  | nil => simp
  | @cons p q a b e _ ih =>
    have hq : Same p.1 q.1 := e.1 ▸ same_refl (e.1 ▸ hb q List.mem_cons_self)
    have := ih fun r hr => hb r (List.mem_cons_of_mem _ hr)
    constructor
    · intro r hr
      rcases List.mem_cons.mp hr with rfl | hr
      · exact ⟨q, List.mem_cons_self, hq, e.2⟩
      · obtain ⟨x, hx, e⟩ := this.1 r hr
        exact ⟨x, List.mem_cons_of_mem _ hx, e⟩
    · intro r hr
      rcases List.mem_cons.mp hr with rfl | hr
      · exact ⟨p, List.mem_cons_self, hq, e.2⟩
      · obtain ⟨x, hx, e⟩ := this.2 r hr
        exact ⟨x, List.mem_cons_of_mem _ hx, e⟩

theorem forall2_keys {a b : List (Val × Val)}
    (h : List.Forall₂ (fun p q : Val × Val => p.1 = q.1 ∧ Same p.2 q.2) a b) :
    a.map (·.1) = b.map (·.1) := by
  induction h with
  | nil => rfl
  | cons e _ ih => simp [e.1, ih]

theorem prog_leaf (L : Lib) {l : Leaf} {cs : List Cmd} (h : Prog (.leaf l) cs) :
    Pushes L cs [.val (.leaf l)] := by
  cases h <;> exact pushes_one (fun i => rfl)

mutual

theorem prog_same (L : Lib) : ∀ (v : Val) (cs : List Cmd), Prog v cs → v.WF →
    ∃ w, Pushes L cs [.val w] ∧ w.WF ∧ Same w v ∧ ∀ l, w = .leaf l → v = .leaf l
  | .leaf l, cs, h, hw => ⟨_, prog_leaf L h, hw, same_refl hw, fun _ h => h⟩
  | .arr xs, cs, h, hw => by
    cases h with
    | arr h hl =>
      obtain ⟨ws, hp, hww, hs, _⟩ := progs_same L xs _ h (by simpa [Val.WF] using hw)
      refine ⟨.arr ws, ?_, by rw [Val.WF, wfs_iff]; exact hww, same_arr.mpr hs, fun _ h => by cases h⟩
      rw [← hs.length_eq]
      exact hp.last (step_array L ws)
  | .set xs, cs, h, hw => by
    cases h with
    | set h hl =>
      rw [Val.WF] at hw
      obtain ⟨ws, hp, hww, hs, hl⟩ := progs_same L xs _ h hw.1
      have hb := set_build L hww (wfs_iff.mp hw.1)
        (fun ⟨s, hm⟩ n hn => hw.2.2 ⟨s, hl _ hm⟩ n (hl _ hn)) hs
      refine ⟨.set (makeSet L ws), ?_, hb.1, hb.2, fun _ h => by cases h⟩
      rw [← hs.length_eq]
      exact hp.last (step_set L ws)
  | .obj kvs, cs, h, hw => by
    cases h with
    | obj h hl =>
      rw [Val.WF] at hw
      obtain ⟨ws, hp, hww, hs⟩ := progItems_same L kvs _ h hw.1
      refine ⟨.obj ws, ?_, ?_, forall2_obj hs fun q hq => ((wfkvs_iff.mp hw.1) q hq).1.2, fun _ h => by cases h⟩
      · rw [← hs.length_eq]
        exact hp.last (step_object L ws)
      · rw [Val.WF, wfkvs_iff]
        refine ⟨hww, ?_⟩
        have := forall2_keys hs
        have h2 : (ws.map fun p => keyText p.1) = (kvs.map fun p => keyText p.1) := by
          have := congrArg (List.map keyText) this
          simpa [List.map_map, Function.comp_def] using this
        rw [h2]
        exact hw.2

theorem progs_same (L : Lib) : ∀ (xs : List Val) (cs : List Cmd), Progs xs cs → WFs xs →
    ∃ ws, Pushes L cs (ws.map .val) ∧ (∀ w ∈ ws, w.WF) ∧ List.Forall₂ Same ws xs ∧
      ∀ l, Val.leaf l ∈ ws → Val.leaf l ∈ xs
  | [], cs, h, _ => by cases h; exact ⟨[], Pushes.nil L, by simp, .nil, by simp⟩
  | x :: xs, cs, h, hw => by
    cases h with
    | cons h hs =>
      obtain ⟨w, hp, hww, e, hl⟩ := prog_same L x _ h hw.1
      obtain ⟨ws, hp', hww', e', hl'⟩ := progs_same L xs _ hs hw.2
      refine ⟨w :: ws, hp.append hp', by simpa using ⟨hww, hww'⟩, .cons e e', fun l hm => ?_⟩
      rcases List.mem_cons.mp hm with hm | hm
      · rw [hl l hm.symm]; exact List.mem_cons_self
      · exact List.mem_cons_of_mem _ (hl' l hm)

theorem progItems_same (L : Lib) : ∀ (kvs : List (Val × Val)) (cs : List Cmd), ProgItems kvs cs →
    WFkvs kvs → ∃ ws : List (Val × Val), Pushes L cs (ws.map fun p => .item p.1 p.2) ∧
      (∀ p ∈ ws, ((∃ s, p.1 = .leaf (.str s)) ∧ p.1.WF) ∧ p.2.WF) ∧
      List.Forall₂ (fun p q : Val × Val => p.1 = q.1 ∧ Same p.2 q.2) ws kvs
  | [], cs, h, _ => by cases h; exact ⟨[], Pushes.nil L, by simp, .nil⟩
  | (k, v) :: kvs, cs, h, hw => by
    cases h with
    | cons hk hv hs =>
      rw [wfkvs_iff] at hw
      obtain ⟨⟨⟨s, hks⟩, hkw⟩, hvw⟩ := hw (k, v) List.mem_cons_self
      obtain ⟨w, hp, hww, e, _⟩ := prog_same L v _ hv hvw
      obtain ⟨ws, hp', hww', e'⟩ := progItems_same L kvs _ hs
        (wfkvs_iff.mpr fun p hp => hw p (List.mem_cons_of_mem _ hp))
      dsimp only at hks hkw
      refine ⟨(k, w) :: ws, ?_, ?_, .cons ⟨rfl, e⟩ e'⟩
      · subst hks
        exact (((prog_leaf L hk).append hp).last (step_item L _ w)).append hp'
      · intro p hp
        rcases List.mem_cons.mp hp with rfl | hp
        · exact ⟨⟨⟨s, hks⟩, hkw⟩, hww⟩
        · exact hww' p hp

end

/-! ## Failing calls -/

/-- What holds of every call: an error leaves the stack and is kept in the status; a
success happens only with status OK, and keeps it. -/
def Sound (i : Input) (r : Input × Code) : Prop :=
  (r.2 ≠ .ok → r.1.stack = i.stack ∧ r.1.status = r.2) ∧
  (r.2 = .ok → i.status = .ok ∧ r.1.status = .ok)

theorem sound_guarded {i : Input} {n : Nat} {f : Input → Input × Code}
    (h : i.status = .ok → Sound i (f i)) : Sound i (guarded i n f) := by
  unfold guarded
  split
  · exact ⟨fun _ => ⟨rfl, rfl⟩, fun h => by cases h⟩
  · split
    · next hs => exact ⟨fun _ => ⟨rfl, rfl⟩, fun h => absurd h hs⟩
    · next hs => exact h (by simpa using hs)

theorem sound_step (L : Lib) (i : Input) (c : Cmd) : Sound i (step L i c) := by
  have hpush : ∀ v, Sound i (push i v) := by
    intro v
    unfold push
    split
    · next hs => exact ⟨fun _ => ⟨rfl, rfl⟩, fun h => absurd h hs⟩
    · next hs => exact ⟨fun h => absurd rfl h, fun _ => ⟨by simpa using hs, by simpa using hs⟩⟩
  cases c with
  | objectItem =>
    refine sound_guarded fun hs => ?_
    unfold objectItem
    split <;> exact ⟨fun h => absurd rfl h, fun _ => ⟨hs, hs⟩⟩
  | object n =>
    refine sound_guarded fun hs => ?_
    unfold object
    split
    · exact ⟨fun _ => ⟨rfl, rfl⟩, fun h => by cases h⟩
    · split <;> exact ⟨fun h => absurd rfl h, fun _ => ⟨hs, hs⟩⟩
  | array n =>
    refine sound_guarded fun hs => ?_
    unfold array
    split <;> exact ⟨fun h => absurd rfl h, fun _ => ⟨hs, hs⟩⟩
  | set n =>
    refine sound_guarded fun hs => ?_
    unfold set
    split <;> exact ⟨fun h => absurd rfl h, fun _ => ⟨hs, hs⟩⟩
  | _ => exact hpush _

theorem step_error (L : Lib) (i : Input) (c : Cmd) (h : (step L i c).2 ≠ .ok) :
    (step L i c).1.stack = i.stack ∧ (step L i c).1.status = (step L i c).2 :=
  (sound_step L i c).1 h

theorem step_ok (L : Lib) (i : Input) (c : Cmd) (h : (step L i c).2 = .ok) :
    i.status = .ok ∧ (step L i c).1.status = .ok :=
  (sound_step L i c).2 h

theorem run_error (L : Lib) (cs : List Cmd) (i : Input) (h : ∃ c ∈ (run L i cs).2, c ≠ .ok) :
    (run L i cs).1.status ≠ .ok := by
  induction cs generalizing i with
  | nil => simp [run] at h
  | cons c cs ih =>
    by_cases ht : ∃ d ∈ (run L (step L i c).1 cs).2, d ≠ .ok
    · exact ih _ ht
    · obtain ⟨d, hd, hne⟩ := h
      rw [run] at hd
      rcases List.mem_cons.mp hd with rfl | hd
      · cases cs with
        | nil => rw [run, run, (step_error L i c hne).2]; exact hne
        | cons c' cs' =>
          exfalso
          apply ht
          refine ⟨_, by rw [run]; exact List.mem_cons_self, fun e => ?_⟩
          exact hne (by rw [← (step_error L i c hne).2]; exact (step_ok L _ c' e).1)
      · exact absurd ⟨d, hd, hne⟩ ht

theorem run_allOk (L : Lib) (cs : List Cmd) (i : Input) (hi : i.status = .ok)
    (h : ∀ c ∈ (run L i cs).2, c = .ok) : (run L i cs).1.status = .ok := by
  induction cs generalizing i with
  | nil => exact hi
  | cons c cs ih =>
    rw [run] at h ⊢
    exact ih _ (step_ok L i c (h _ List.mem_cons_self)).2 fun d hd => h d (List.mem_cons_of_mem _ hd)

end Verif.CApi
