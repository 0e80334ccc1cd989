import Verif.Encoding.Lemmas

/-!
# Lemmas about `urlquery.decode_object`
-/

namespace Verif.Encoding

/-- Where a search ends. -/
theorem findFrom_cases (c : UInt8) : ∀ (i : Nat) (xs : Bytes),
    (c ∉ xs ∧ findFrom c i xs = npos) ∨
    ∃ pre rest, xs = pre ++ c :: rest ∧ c ∉ pre ∧ findFrom c i xs = i + pre.length
  | _, [] => .inl ⟨by simp, rfl⟩
  | i, x :: xs => by
    rw [findFrom]
    by_cases h : x = c
    · subst h
      exact .inr ⟨[], xs, rfl, by simp, by simp⟩
    · rw [if_neg h]
      rcases findFrom_cases c (i + 1) xs with ⟨h1, h2⟩ | ⟨pre, rest, h1, h2, h3⟩
      · exact .inl ⟨by simp [Ne.symm h, h1], h2⟩
      · exact .inr ⟨x :: pre, rest, by rw [h1]; rfl, by simp [Ne.symm h, h2],
          by rw [h3, List.length_cons]; omega⟩

theorem segments_split : ∀ (pre acc rest : Bytes), '&'.toUInt8 ∉ pre →
    Spec.segments acc (pre ++ '&'.toUInt8 :: rest) = (acc ++ pre) :: Spec.segments [] rest
  | [], acc, rest, _ => by simp [Spec.segments]
  | x :: pre, acc, rest, h => by
    simp only [List.mem_cons, not_or] at h
    rw [List.cons_append, Spec.segments, if_neg (Ne.symm h.1), segments_split pre _ rest h.2]
    simp

theorem segments_last : ∀ (xs acc : Bytes), '&'.toUInt8 ∉ xs →
    Spec.segments acc xs = if acc ++ xs = [] then [] else [acc ++ xs]
  | [], acc, _ => by simp [Spec.segments]
  | x :: xs, acc, h => by
    simp only [List.mem_cons, not_or] at h
    rw [Spec.segments, if_neg (Ne.symm h.1), segments_last xs _ h.2]
    simp

/-- Decoding of the items one after the other. -/
def uqFold : List Bytes → List (Bytes × List Bytes) → Out (Option (List (Bytes × List Bytes)))
  | [], m => .ok (some m)
  | seg :: segs, m => do
    let (key, value) ← uqItem seg
    uqFold segs (mapPush key value m)

theorem drop_split {s pre rest : Bytes} {c : UInt8} {start : Nat}
    (h : s.drop start = pre ++ c :: rest) :
    s.drop (start + pre.length + 1) = rest ∧ start + pre.length < s.length ∧
    (s.drop start).take pre.length = pre := by
  refine ⟨?_, ?_, ?_⟩
  · have : s.drop (start + pre.length + 1) = (s.drop start).drop (pre.length + 1) := by
      rw [List.drop_drop]; congr 1
    rw [this, h, ← List.drop_drop]
    simp
  · have := congrArg List.length h
    simp at this
    omega
  · rw [h]; simp

theorem uqLoop_segments (s : Bytes) (hlen : s.length < npos) : ∀ (fuel start : Nat)
    (m : List (Bytes × List Bytes)), s.length + 2 ≤ fuel + start → start ≤ s.length + 1 →
    uqLoop s fuel start (if find '&'.toUInt8 s start = npos then s.length else find '&'.toUInt8 s start) m =
      uqFold (Spec.segments [] (s.drop start)) m
  | 0, start, m, h1, h2 => by omega
  | fuel + 1, start, m, h1, h2 => by
    rw [uqLoop]
    have hn : npos = 2 ^ 64 - 1 := rfl
    by_cases hs : start < s.length
    · rw [if_pos hs]
      rcases findFrom_cases '&'.toUInt8 start (s.drop start) with ⟨g1, g2⟩ | ⟨pre, rest, g1, g2, g3⟩
      · rw [find, g2, if_pos rfl, segments_last _ _ g1, List.nil_append]
        have hne : s.drop start ≠ [] := fun h => by
          have := congrArg List.length h
          simp at this
          omega
        rw [if_neg hne]
        have hsub : substr s start ((2 ^ 64 + s.length - start) % 2 ^ 64) = .ok (s.drop start) := by
          rw [substr, if_pos (by omega), show (2 ^ 64 + s.length - start) % 2 ^ 64 = s.length - start by omega]
          rw [List.take_of_length_le (by simp)]
        rw [hsub]
        simp only [Out.ok_bind, uqFold]
        rcases uqItem (s.drop start) with ⟨k, v⟩ | _ | _ | _
        · simp only [Out.ok_bind]
          rw [show (s.length + 1) % 2 ^ 64 = s.length + 1 by omega]
          cases fuel with
          | zero => omega
          | succ fuel => rw [uqLoop, if_neg (by omega)]
        all_goals rfl
      · obtain ⟨k1, k2, k3⟩ := drop_split g1
        rw [find, g3, if_neg (by omega), g1, segments_split _ _ _ g2, List.nil_append]
        have hsub : substr s start ((2 ^ 64 + (start + pre.length) - start) % 2 ^ 64) = .ok pre := by
          rw [substr, if_pos (by omega),
            show (2 ^ 64 + (start + pre.length) - start) % 2 ^ 64 = pre.length by omega, k3]
        rw [hsub]
        simp only [Out.ok_bind, uqFold]
        rcases uqItem pre with ⟨k, v⟩ | _ | _ | _
        · simp only [Out.ok_bind]
          rw [show (start + pre.length + 1) % 2 ^ 64 = start + pre.length + 1 by omega, ← k1]
          exact uqLoop_segments s hlen fuel _ _ (by omega) (by omega)
        all_goals rfl
    · rw [if_neg hs, List.drop_eq_nil_of_le (by omega)]
      rfl

/-- A query with a separator is processed segment by segment. -/
theorem uqDecodeObject_sep (s : Bytes) (hlen : s.length < npos) (h : '&'.toUInt8 ∈ s) :
    uqDecodeObject s = uqFold (Spec.segments [] s) [] := by
  have := uqLoop_segments s hlen (s.length + 3) 0 [] (by omega) (by omega)
  rw [List.drop_zero] at this
  rw [uqDecodeObject, ← this]
  rcases findFrom_cases '&'.toUInt8 0 (s.drop 0) with ⟨g1, _⟩ | ⟨pre, rest, g1, g2, g3⟩
  · exact absurd h (by simpa using g1)
  · rw [find, g3, if_neg]
    have := congrArg List.length g1
    simp at this
    simp only [npos] at *
    omega

/-- A query without separator is processed twice. -/
theorem uqDecodeObject_single (s : Bytes) (hlen : s.length < npos) (h : '&'.toUInt8 ∉ s)
    (hs : s ≠ []) : uqDecodeObject s = uqFold [s, s] [] := by
  have hpos : 0 < s.length := List.length_pos_iff.mpr hs
  have hfind : find '&'.toUInt8 s 0 = npos := by
    rcases findFrom_cases '&'.toUInt8 0 (s.drop 0) with ⟨_, g2⟩ | ⟨pre, rest, g1, _, _⟩
    · exact g2
    · rw [List.drop_zero] at g1
      exact absurd (by rw [g1]; simp) h
  rw [uqDecodeObject, hfind, uqLoop, if_pos hpos]
  have hsub : substr s 0 ((2 ^ 64 + npos - 0) % 2 ^ 64) = .ok s := by
    rw [substr, if_pos (by omega)]
    simp only [npos] at *
    rw [show (2 ^ 64 + (2 ^ 64 - 1) - 0) % 2 ^ 64 = 2 ^ 64 - 1 by omega, List.drop_zero,
      List.take_of_length_le (by omega)]
  rw [hsub]
  simp only [Out.ok_bind]
  rw [uqFold]
  rcases uqItem s with ⟨k, v⟩ | _ | _ | _
  · simp only [Out.ok_bind]
    rw [show (npos + 1) % 2 ^ 64 = 0 by decide]
    have := uqLoop_segments s hlen (s.length + 2) 0 (mapPush k v []) (by omega) (by omega)
    rw [List.drop_zero, segments_last _ _ h, List.nil_append, if_neg hs] at this
    exact this
  all_goals rfl

/-! ### Items -/

theorem uqItem_of_param {seg k v : Bytes} (hlen : seg.length < npos) (h : Spec.Param seg k v) :
    uqItem seg = .ok (k, v) := by
  cases h with
  | @assign a b _ _ ha hk hv =>
    have hf : find '='.toUInt8 (a ++ '='.toUInt8 :: b) 0 = a.length := by
      rcases findFrom_cases '='.toUInt8 0 (List.drop 0 (a ++ '='.toUInt8 :: b)) with
        ⟨g1, _⟩ | ⟨pre, rest, g1, g2, g3⟩
      · simp at g1
      · rw [find, g3, Nat.zero_add]
        rw [List.drop_zero] at g1
        rcases List.append_eq_append_iff.mp g1 with ⟨x, h1, h2⟩ | ⟨x, h1, h2⟩
        · cases x with
          | nil => rw [h1]; simp
          | cons y x => cases h2; rw [h1] at g2; simp at g2
        · cases x with
          | nil => rw [h1]; simp
          | cons y x => cases h2; rw [h1] at ha; simp at ha
    simp only [List.length_append, List.length_cons] at hlen
    unfold uqItem
    simp only [hf]
    have h1 : substr (a ++ '='.toUInt8 :: b) 0 a.length = .ok a := by
      simp [substr]
    have h2 : substr (a ++ '='.toUInt8 :: b) (a.length + 1) npos = .ok b := by
      rw [substr, if_pos (by simp), ← List.drop_drop]
      simp only [List.drop_left, List.drop_succ_cons, List.drop_zero]
      rw [List.take_of_length_le (by omega)]
    rw [h1, h2]
    simp only [Out.ok_bind]
    rw [uqDecode_of_pct hk, uqDecode_of_pct hv]
    simp only [Out.ok_bind]
    rw [if_pos (by omega)]
    rfl
  | @bare a _ ha hk =>
    have hf : find '='.toUInt8 seg 0 = npos := by
      rcases findFrom_cases '='.toUInt8 0 (seg.drop 0) with ⟨_, g2⟩ | ⟨pre, rest, g1, g2, g3⟩
      · exact g2
      · rw [List.drop_zero] at g1
        exact absurd (by rw [g1]; simp) ha
    unfold uqItem
    simp only [hf]
    have h1 : substr seg 0 npos = .ok seg := by
      rw [substr, if_pos (by omega), List.drop_zero, List.take_of_length_le (by omega)]
    rw [h1]
    simp only [Out.ok_bind]
    rw [uqDecode_of_pct hk]
    simp

/-- Insertion of the parameters one after the other. -/
def pushAll : List (Bytes × Bytes) → List (Bytes × List Bytes) → List (Bytes × List Bytes)
  | [], m => m
  | (k, v) :: ps, m => pushAll ps (mapPush k v m)

theorem uqFold_params {segs : List Bytes} {ps : List (Bytes × Bytes)} (h : Spec.Params segs ps) :
    (∀ seg ∈ segs, seg.length < npos) → ∀ m, uqFold segs m = .ok (some (pushAll ps m)) := by
  induction h with
  | nil => intro _ m; rfl
  | cons hp _ ih =>
    intro hl m
    rw [uqFold, uqItem_of_param (hl _ (by simp)) hp]
    simp only [Out.ok_bind]
    exact ih (fun s hs => hl s (List.mem_cons_of_mem _ hs)) _

/-! ### The map -/

/-- Entry of a key, as a list of values (empty if absent). -/
def entry (k : Bytes) : List (Bytes × List Bytes) → List Bytes
  | [] => []
  | (k', vs) :: m => if k = k' then vs else entry k m

theorem mapPush_mem (k v : Bytes) : ∀ (m : List (Bytes × List Bytes)) (x : Bytes),
    x ∈ (mapPush k v m).map (·.1) ↔ x = k ∨ x ∈ m.map (·.1)
  | [], x => by simp [mapPush]
  | (k', vs) :: m, x => by
    rw [mapPush]
    split
    · rename_i h; subst h; simp
    · split
      · simp
      · simp only [List.map_cons, List.mem_cons, mapPush_mem k v m x]
        exact or_left_comm

theorem bytesLt_irrefl : ∀ a, bytesLt a a = false
  | [] => rfl
  | a :: as => by simp [bytesLt, bytesLt_irrefl as]

theorem bytesLt_trans : ∀ {a b c : Bytes}, bytesLt a b = true → bytesLt b c = true → bytesLt a c = true
  | _, [], _, h, _ => by simp [bytesLt] at h
  | _, _ :: _, [], _, h => by simp [bytesLt] at h
  | [], _ :: _, _ :: _, _, _ => rfl
  | a :: as, b :: bs, c :: cs, h1, h2 => by
    simp only [bytesLt] at h1 h2 ⊢
    split at h1
    · split at h2
      · rw [if_pos (by omega)]
      · split at h2
        · cases h2
        · rw [if_pos (by omega)]
    · split at h1
      · cases h1
      · split at h2
        · rw [if_pos (by omega)]
        · split at h2
          · cases h2
          · rw [if_neg (by omega), if_neg (by omega)]
            exact bytesLt_trans h1 h2

theorem bytesLt_total : ∀ (a b : Bytes), a ≠ b → bytesLt a b = false → bytesLt b a = true
  | [], [], h, _ => absurd rfl h
  | [], _ :: _, _, h => by simp [bytesLt] at h
  | _ :: _, [], _, _ => rfl
  | a :: as, b :: bs, h, h2 => by
    simp only [bytesLt] at h2 ⊢
    split at h2
    · cases h2
    · split at h2
      · rw [if_pos (by omega)]
      · have hab : a = b := UInt8.toNat_inj.mp (by omega)
        subst hab
        rw [if_neg (by omega), if_neg (by omega)]
        exact bytesLt_total as bs (fun e => h (by rw [e])) h2

/-- The keys are in increasing order. -/
def Sorted (m : List (Bytes × List Bytes)) : Prop :=
  m.Pairwise fun a b => bytesLt a.1 b.1 = true

theorem mapPush_sorted (k v : Bytes) : ∀ (m : List (Bytes × List Bytes)), Sorted m →
    Sorted (mapPush k v m)
  | [], _ => by simp [mapPush, Sorted]
  | (k', vs) :: m, h => by
    rw [Sorted, List.pairwise_cons] at h
    rw [mapPush]
    split
    · rw [Sorted, List.pairwise_cons]; exact h
    · rename_i hne
      split
      · rename_i hlt
        rw [Sorted, List.pairwise_cons]
        refine ⟨?_, by rw [List.pairwise_cons]; exact h⟩
        intro p hp
        rcases List.mem_cons.mp hp with rfl | hp
        · exact hlt
        · exact bytesLt_trans hlt (h.1 p hp)
      · rename_i hnlt
        rw [Sorted, List.pairwise_cons]
        refine ⟨?_, mapPush_sorted k v m h.2⟩
        intro p hp
        have : p.1 ∈ (mapPush k v m).map (·.1) := List.mem_map.mpr ⟨p, hp, rfl⟩
        rcases (mapPush_mem k v m p.1).mp this with e | e
        · rw [e]
          exact bytesLt_total _ _ hne (by simpa using hnlt)
        · obtain ⟨q, hq, e⟩ := List.mem_map.mp e
          rw [← e]
          exact h.1 q hq

theorem mapPush_entry (k v : Bytes) : ∀ (m : List (Bytes × List Bytes)), Sorted m → ∀ x,
    entry x (mapPush k v m) = if x = k then entry x m ++ [v] else entry x m
  | [], _, x => by simp [mapPush, entry]
  | (k', vs) :: m, h, x => by
    rw [Sorted, List.pairwise_cons] at h
    rw [mapPush]
    split
    · rename_i e; subst e
      simp only [entry]
      split <;> rfl
    · rename_i hne
      split
      · rename_i hlt
        rw [entry]
        split
        · rename_i e; subst e
          have : entry x ((k', vs) :: m) = [] := by
            have hnot : ∀ m' : List (Bytes × List Bytes), (∀ p ∈ m', bytesLt x p.1 = true) →
                entry x m' = [] := by
              intro m'
              induction m' with
              | nil => intro _; rfl
              | cons p m' ih =>
                intro hm
                obtain ⟨p1, p2⟩ := p
                rw [entry, if_neg, ih fun q hq => hm q (List.mem_cons_of_mem _ hq)]
                intro e
                have := hm (p1, p2) (by simp)
                rw [← e, bytesLt_irrefl] at this
                cases this
            refine hnot _ fun p hp => ?_
            rcases List.mem_cons.mp hp with rfl | hp
            · exact hlt
            · exact bytesLt_trans hlt (h.1 p hp)
          rw [this]; rfl
        · rfl
      · rw [entry, mapPush_entry k v m h.2 x, entry]
        split
        · rename_i e; subst e
          rw [if_neg (Ne.symm hne)]
        · rfl

theorem pushAll_sorted : ∀ (ps : List (Bytes × Bytes)) (m : List (Bytes × List Bytes)), Sorted m →
    Sorted (pushAll ps m)
  | [], _, h => h
  | (k, v) :: ps, m, h => pushAll_sorted ps _ (mapPush_sorted k v m h)

theorem pushAll_mem : ∀ (ps : List (Bytes × Bytes)) (m : List (Bytes × List Bytes)) (x : Bytes),
    x ∈ (pushAll ps m).map (·.1) ↔ x ∈ ps.map (·.1) ∨ x ∈ m.map (·.1)
  | [], m, x => by simp [pushAll]
  | (k, v) :: ps, m, x => by
    rw [pushAll, pushAll_mem ps _ x, mapPush_mem]
    simp only [List.map_cons, List.mem_cons]
    constructor
    · rintro (h | h | h)
      · exact .inl (.inr h)
      · exact .inl (.inl h)
      · exact .inr h
    · rintro ((h | h) | h)
      · exact .inr (.inl h)
      · exact .inl h
      · exact .inr (.inr h)

theorem pushAll_entry : ∀ (ps : List (Bytes × Bytes)) (m : List (Bytes × List Bytes)), Sorted m →
    ∀ x, entry x (pushAll ps m) = entry x m ++ Spec.valuesOf x ps
  | [], _, _, x => by simp [pushAll, Spec.valuesOf]
  | (k, v) :: ps, m, h, x => by
    rw [pushAll, pushAll_entry ps _ (mapPush_sorted k v m h) x, mapPush_entry k v m h x]
    by_cases e : x = k
    · subst e; simp [Spec.valuesOf]
    · simp [Spec.valuesOf, Ne.symm e, e]

theorem mem_entry {m : List (Bytes × List Bytes)} (h : Sorted m) (k : Bytes) (vs : List Bytes) :
    (k, vs) ∈ m ↔ vs = entry k m ∧ k ∈ m.map (·.1) := by
  induction m with
  | nil => simp
  | cons p m ih =>
    obtain ⟨k', ws⟩ := p
    rw [Sorted, List.pairwise_cons] at h
    rw [entry, List.mem_cons, ih h.2]
    by_cases e : k = k'
    · subst e
      have hk : k ∉ m.map (·.1) := fun hm => by
        obtain ⟨q, hq, e⟩ := List.mem_map.mp hm
        have := h.1 q hq
        simp only [e, bytesLt_irrefl] at this
        cases this
      simp [hk]
    · simp [e]

theorem pushAll_object (ps : List (Bytes × Bytes)) : Spec.IsObject (pushAll ps []) ps := by
  have hs : Sorted (pushAll ps []) := pushAll_sorted ps [] (by simp [Sorted])
  refine ⟨?_, fun k vs => ?_⟩
  · rw [List.Nodup, List.pairwise_map]
    refine List.Pairwise.imp ?_ hs
    intro a b hab e
    rw [e, bytesLt_irrefl] at hab
    cases hab
  · rw [mem_entry hs, pushAll_entry ps [] (by simp [Sorted]), pushAll_mem]
    simp [entry]

theorem segments_length : ∀ (s acc : Bytes), ∀ seg ∈ Spec.segments acc s,
    seg.length ≤ acc.length + s.length
  | [], acc, seg, h => by
    rw [Spec.segments] at h
    split at h
    · cases h
    · simp at h; subst h; simp
  | c :: cs, acc, seg, h => by
    rw [Spec.segments] at h
    split at h
    · rcases List.mem_cons.mp h with rfl | h
      · omega
      · have := segments_length cs [] seg h
        simp only [List.length_nil, List.length_cons] at this ⊢
        omega
    · have := segments_length cs _ seg h
      simp only [List.length_append, List.length_cons, List.length_nil] at this ⊢
      omega

end Verif.Encoding
