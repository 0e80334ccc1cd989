import Verif.Binary.Load

/-!
# The header of a bundle file
-/

namespace Verif.Binary

/-- The layout of a file: the magic bytes, the versions 1 and 1, the query plan, five reserved
bytes, the number of locals, the checksum, the size of the payload, 32 bytes of pointers, the
payload and whatever follows. -/
structure Layout (file : Bytes) (q : UInt8) (n crc : Nat) (payload rest : Bytes) : Prop where
  bytes : ∃ reserved ptrs : Bytes, reserved.length = 5 ∧ ptrs.length = 32 ∧
    file = enc "REGOBUND".toList ++ (1 :: 1 :: q :: (reserved ++ (le 4 n ++ (le 4 crc ++ (le 8 payload.length ++
      (ptrs ++ (payload ++ rest)))))))
  small : n < 2 ^ 32 ∧ crc < 2 ^ 32
  size : payload.length ≤ 256 * 1024 * 1024

theorem R.bind_inv {α β : Type} {x : R α} {f : α → R β} {s : In} {r : β × In} (h : (x >>= f) s = .ok r) :
    ∃ a s', x s = .ok (a, s') ∧ f a s' = .ok r := by
  replace h : R.bind x f s = .ok r := h
  unfold R.bind at h
  split at h
  · exact ⟨_, _, ‹_›, h⟩
  · cases h
  · cases h
  · cases h

theorem byte_inv {s s' : In} {b : UInt8} (h : rByte s = .ok (b, s')) (hf : s'.fail = false) :
    s.fail = false ∧ s.rest = b :: s'.rest ∧ s'.junk = s.junk ∧ s'.total = s.total := by
  rcases byte_cases s with ⟨b', r, h0, h1, h2⟩ | h2
  · rw [h2] at h
    cases h
    exact ⟨h0, h1, rfl, rfl⟩
  · rw [h2] at h
    cases h
    cases hf

theorem le_ofLe : ∀ bs : Bytes, le bs.length (ofLe bs) = bs
  | [] => rfl
  | b :: bs => by
    have h := b.toNat_lt
    rw [List.length_cons, ofLe, le]
    have e1 : (b.toNat + 256 * ofLe bs) % 256 = b.toNat := by omega
    have e2 : (b.toNat + 256 * ofLe bs) / 256 = ofLe bs := by omega
    rw [e1, e2, le_ofLe bs, UInt8.ofNat_toNat]

theorem leR_inv {k : Nat} {s s' : In} {v : Nat} (h : rLe k s = .ok (v, s')) (hf : s'.fail = false) :
    s.fail = false ∧ s.rest = le k v ++ s'.rest ∧ v < 256 ^ k ∧ s'.junk = s.junk ∧ s'.total = s.total := by
  unfold rLe at h
  split at h
  · rename_i hk
    cases h
    have hl : (s.rest.take k).length = k := by rw [List.length_take]; omega
    have := le_ofLe (s.rest.take k)
    rw [hl] at this
    have hlt := ofLe_lt (s.rest.take k)
    rw [hl] at hlt
    exact ⟨hk.1, by rw [this]; exact (List.take_append_drop k s.rest).symm, hlt, rfl, rfl⟩
  · cases h
    cases hf

theorem raw_inv {k : Nat} {s s' : In} {bs : Bytes} (h : rRaw k s = .ok (bs, s')) (hf : s'.fail = false) :
    s.fail = false ∧ s.rest = bs ++ s'.rest ∧ bs.length = k ∧ s'.junk = s.junk := by
  unfold rRaw at h
  split at h
  · rename_i h0
    cases h
    rw [h0] at hf
    cases hf
  · rename_i h0
    split at h
    · cases h
      exact ⟨by simpa using h0, (List.take_append_drop k s.rest).symm, by rw [List.length_take]; omega, rfl⟩
    · cases h
      cases hf

/-- A file whose header is accepted, with a payload that is not empty, has the layout. -/
theorem header_inv {E : Env} {file : Bytes} {total : Nat} {junk : Nat → Nat} {bytes : Bytes} {n : Nat} {q : UInt8} {s : In}
    (h : rHeader E file ⟨file, total, false, junk⟩ = .ok ((bytes, n, q), s)) (hne : bytes ≠ []) :
    s.junk = junk ∧ ∃ rest, Layout file q n (crc32 0#32 bytes).toNat bytes rest := by
  unfold rHeader at h
  obtain ⟨_, s1, h1, h⟩ := R.bind_inv h
  obtain ⟨v1, s2, h2, h⟩ := R.bind_inv h
  split at h
  · cases h
  rename_i hv1
  obtain ⟨v2, s3, h3, h⟩ := R.bind_inv h
  split at h
  · cases h
  rename_i hv2
  obtain ⟨q', s4, h4, h⟩ := R.bind_inv h
  obtain ⟨_, s5, h5, h⟩ := R.bind_inv h
  obtain ⟨lc, s6, h6, h⟩ := R.bind_inv h
  obtain ⟨crc, s7, h7, h⟩ := R.bind_inv h
  obtain ⟨size, s8, h8, h⟩ := R.bind_inv h
  obtain ⟨_, s9, h9, h⟩ := R.bind_inv h
  split at h
  · cases h
  rename_i hsize
  obtain ⟨bs, s10, h10, h⟩ := R.bind_inv h
  obtain ⟨fl, s11, h11, h⟩ := R.bind_inv h
  cases h11
  split at h
  · cases h
  rename_i hf10
  split at h
  · cases h
  rename_i hcrc
  cases h
  have hf10 : s.fail = false := by simpa using hf10
  obtain ⟨f9, r9, l9, j9⟩ := raw_inv h10 hf10
  -- the position of the payload
  have h9' : s8.fail = false ∧ 64 ≤ file.length ∧ s9.rest = file.drop 64 ∧ s9.junk = s8.junk := by
    unfold rSeekHeader at h9
    split at h9
    · rename_i hx
      cases h9
      rw [hx] at f9
      cases f9
    · rename_i hx
      split at h9
      · cases h9
        exact ⟨by simpa using hx, ‹_›, rfl, rfl⟩
      · split at h9
        · cases h9
          have : bytes = [] := by
            have := congrArg List.length r9
            simp at this
            exact List.length_eq_zero_iff.mp (by omega)
          exact absurd this hne
        · cases h9
          cases f9
  obtain ⟨f8, hl64, r9', j9'⟩ := h9'
  obtain ⟨f7, r7, v7, j7, _⟩ := leR_inv h8 f8
  obtain ⟨f6, r6, v6, j6, _⟩ := leR_inv h7 f7
  obtain ⟨f5, r5, v5, j5, _⟩ := leR_inv h6 f6
  have h5' : s4.fail = false ∧ 5 ≤ s4.rest.length ∧ s5.rest = s4.rest.drop 5 ∧ s5.junk = s4.junk := by
    unfold rSkipReserved at h5
    split at h5
    · rename_i hx
      cases h5
      rw [hx] at f5
      cases f5
    · rename_i hx
      split at h5
      · cases h5
        exact ⟨by simpa using hx, ‹_›, rfl, rfl⟩
      · split at h5
        · cases h5
          have := congrArg List.length r5
          simp only [List.length_append, le_length, List.length_nil] at this
          omega
        · cases h5
          cases f5
  obtain ⟨f4, l4, r5', j5'⟩ := h5'
  obtain ⟨f3, r3, j3, _⟩ := byte_inv h4 f4
  obtain ⟨f2, r2, j2, _⟩ := byte_inv h3 f3
  obtain ⟨f1, r1, j1, _⟩ := byte_inv h2 f2
  have h1' : 8 ≤ file.length ∧ file.take 8 = magic ∧ s1.rest = file.drop 8 ∧ s1.junk = junk := by
    unfold rMagic at h1
    split at h1
    · split at h1
      · cases h1
        exact ⟨‹_›, ‹_›, rfl, rfl⟩
      · cases h1
    · split at h1
      · cases h1
      · cases h1
        cases f1
  obtain ⟨l0, m0, r0, j0⟩ := h1'
  have ev1 : v1 = 1 := by simpa using hv1
  have ev2 : v2 = 1 := by simpa using hv2
  have ecrc : crc = (crc32 0#32 bytes).toNat := by
    have : crc32 0#32 bytes = BitVec.ofNat 32 crc := by simpa using hcrc
    rw [this, BitVec.toNat_ofNat, Nat.mod_eq_of_lt (by simpa using v6)]
  refine ⟨by rw [j9, j9', j7, j6, j5, j5', j3, j2, j1, j0], s.rest, ⟨s4.rest.take 5, s8.rest.take 32, ?_, ?_, ?_⟩, ?_, ?_⟩
  · rw [List.length_take]; omega
  · have hd := congrArg List.length r0
    rw [r1, r2, r3] at hd
    have hd4 := congrArg List.length r5'
    rw [r5, r6, r7] at hd4
    simp only [List.length_cons, List.length_append, List.length_drop, le_length] at hd hd4
    rw [List.length_take]
    omega
  · have e4 : s4.rest = s4.rest.take 5 ++ (le 4 n ++ (le 4 crc ++ (le 8 size ++ s8.rest))) := by
      rw [← r7, ← r6, ← r5, r5', List.take_append_drop]
    have efile : file = magic ++ (1 :: 1 :: q :: s4.rest) := by
      have := (List.take_append_drop 8 file).symm
      rwa [m0, ← r0, r1, r2, r3, ev1, ev2] at this
    have hlen := congrArg List.length efile
    have m8 : magic.length = 8 := by decide
    have t5 : (s4.rest.take 5).length = 5 := by rw [List.length_take]; omega
    have e8 : s8.rest.drop 32 = bytes ++ s.rest := by
      rw [← r9, r9', efile, e4]
      simp only [List.drop_append, List.length_append, List.length_cons, m8, t5, le_length, List.drop_succ_cons]
      simp [List.drop_eq_nil_of_le, m8, t5, le_length]
    rw [efile]
    rw (occs := .pos [1]) [e4]
    rw [ecrc]
    rw (occs := .pos [1]) [← List.take_append_drop 32 s8.rest]
    rw [e8, ← l9]
    rfl
  · exact ⟨by simpa using v5, (crc32 0#32 bytes).isLt⟩
  · rw [l9]
    unfold maxBundle at hsize
    omega

/-- What the header of a file with the layout gives. -/
theorem header_run {E : Env} {file : Bytes} {total : Nat} {junk : Nat → Nat} {q : UInt8} {n crc : Nat} {bytes rest : Bytes}
    (h : Layout file q n crc bytes rest) : ∃ s : In, s.junk = junk ∧
      rHeader E file ⟨file, total, false, junk⟩ =
        if crc32 0#32 bytes ≠ BitVec.ofNat 32 crc then .throws else .ok ((bytes, n, q), s) := by
  obtain ⟨⟨reserved, ptrs, hr, hp, hfile⟩, ⟨hn, hc⟩, hs⟩ := h
  have m8 : magic.length = 8 := by decide
  have hfile' : file = magic ++ (1 :: 1 :: q :: (reserved ++ (le 4 n ++ (le 4 crc ++ (le 8 bytes.length ++
      (ptrs ++ (bytes ++ rest))))))) := hfile
  have hlen : file.length = 64 + (bytes.length + rest.length) := by
    rw [hfile']
    simp only [List.length_append, List.length_cons, le_length, m8, hr, hp]
    omega
  have hdrop : file.drop 64 = bytes ++ rest := by
    have : file = (magic ++ (1 :: 1 :: q :: (reserved ++ (le 4 n ++ (le 4 crc ++ (le 8 bytes.length ++ ptrs)))))) ++
        (bytes ++ rest) := by rw [hfile']; simp
    rw [this]
    refine List.drop_left' ?_
    simp only [List.length_append, List.length_cons, le_length, m8, hr, hp]
  have leRun : ∀ (k v : Nat) (t : Bytes), v < 256 ^ k →
      rLe k ⟨le k v ++ t, total, false, junk⟩ = .ok (v, ⟨t, total, false, junk⟩) := by
    intro k v t hv
    unfold rLe
    rw [if_pos ⟨rfl, by rw [List.length_append, le_length]; omega⟩]
    simp only [List.take_left' (le_length k v), List.drop_left' (le_length k v), ofLe_le, Nat.mod_eq_of_lt hv]
  refine ⟨⟨rest, total, false, junk⟩, rfl, ?_⟩
  unfold rHeader
  have e1 : rMagic ⟨file, total, false, junk⟩ = .ok ((), ⟨1 :: 1 :: q :: (reserved ++ (le 4 n ++ (le 4 crc ++
      (le 8 bytes.length ++ (ptrs ++ (bytes ++ rest)))))), total, false, junk⟩) := by
    unfold rMagic
    rw [if_pos (show 8 ≤ file.length by omega)]
    simp only [hfile', List.take_left' m8, List.drop_left' m8, if_true]
  rw [R.bind_ok e1, R.bind_ok (a := 1) rfl, if_neg (by simp), R.bind_ok (a := 1) rfl, if_neg (by simp),
    R.bind_ok (a := q) rfl]
  have e2 : rSkipReserved E ⟨reserved ++ (le 4 n ++ (le 4 crc ++ (le 8 bytes.length ++ (ptrs ++ (bytes ++ rest))))),
      total, false, junk⟩ =
      .ok ((), ⟨le 4 n ++ (le 4 crc ++ (le 8 bytes.length ++ (ptrs ++ (bytes ++ rest)))), total, false, junk⟩) := by
    unfold rSkipReserved
    rw [if_neg (by simp), if_pos (by simp [hr])]
    simp only [List.drop_left' hr]
  rw [R.bind_ok e2, R.bind_ok (leRun 4 n _ (by simpa using hn)), R.bind_ok (leRun 4 crc _ (by simpa using hc)),
    R.bind_ok (leRun 8 bytes.length _ (by omega))]
  have e3 : rSeekHeader E file ⟨ptrs ++ (bytes ++ rest), total, false, junk⟩ = .ok ((), ⟨bytes ++ rest, total, false, junk⟩) := by
    unfold rSeekHeader
    rw [if_neg (by simp), if_pos (by omega), hdrop]
  rw [R.bind_ok e3, if_neg (by unfold maxBundle; omega)]
  have e4 : rRaw bytes.length ⟨bytes ++ rest, total, false, junk⟩ = .ok (bytes, ⟨rest, total, false, junk⟩) := by
    unfold rRaw
    have : bytes.length ≤ (bytes ++ rest).length := by simp
    simp only [Bool.false_eq_true, if_false, this, if_true, List.take_left', List.drop_left']
  rw [R.bind_ok e4, R.bind_ok (a := false) rfl, if_neg (by simp)]
  split <;> rfl

/-- A reader that returns a value with the property or throws. -/
def Tot {α : Type} (r : R α) (P : α → Prop) : Prop :=
  ∀ s : In, r s = .throws ∨ ∃ a s', r s = .ok (a, s') ∧ P a

theorem Safe.tot {α : Type} {r : R α} {P : α → Prop} (h : ∀ n, Safe n r P) : Tot r P := by
  intro s
  rcases h s.rest.length s (Nat.le_refl _) with h | ⟨a, s', h, hp, _⟩
  · exact .inl h
  · exact .inr ⟨a, s', h, hp⟩

theorem Tot.bind {α β : Type} {x : R α} {f : α → R β} {P : α → Prop} {Q : β → Prop} (h : Tot x P)
    (hf : ∀ a, P a → Tot (f a) Q) : Tot (x >>= f) Q := by
  intro s
  rcases h s with h | ⟨a, s', h, hp⟩
  · exact .inl (R.bind_throws h)
  · rw [R.bind_ok h]
    exact hf a hp s'

theorem Tot.ite {α : Type} {c : Prop} [Decidable c] {x y : R α} {P : α → Prop} (h1 : c → Tot x P) (h2 : ¬ c → Tot y P) :
    Tot (if c then x else y) P := by
  split
  · exact h1 ‹_›
  · exact h2 ‹_›

/-- Nothing is undefined in the header. -/
theorem header_safe (E : Env) (file : Bytes) (junk : Nat → Nat) :
    rHeader E file ⟨file, file.length, false, junk⟩ = .throws ∨ ∃ bytes n q s,
      rHeader E file ⟨file, file.length, false, junk⟩ = .ok ((bytes, n, q), s) ∧ n < 2 ^ 32 ∧ bytes.length ≤ maxBundle := by
  have th : ∀ {P : Bytes × Nat × UInt8 → Prop}, Tot (R.throws : R (Bytes × Nat × UInt8)) P := fun _ => .inl rfl
  have h : Tot (rHeader E file) fun r => r.2.1 < 2 ^ 32 ∧ r.1.length ≤ maxBundle := by
    have B := Safe.tot fun n => safe_byte (n := n)
    have L := fun k => Safe.tot fun n => safe_le (n := n) k
    unfold rHeader
    refine Tot.bind (P := fun _ => True) ?_ fun _ _ => B.bind fun v _ => .ite (fun _ => th) fun _ =>
      B.bind fun v _ => .ite (fun _ => th) fun _ => B.bind fun q _ =>
      Tot.bind (P := fun _ => True) ?_ fun _ _ => (L 4).bind fun lc hlc => (L 4).bind fun crc _ =>
      (L 8).bind fun size _ => Tot.bind (P := fun _ => True) ?_ fun _ _ => .ite (fun _ => th) fun hs =>
      (Safe.tot fun n => safe_raw (n := n) size).bind fun bs hbs => (Safe.tot fun n => safe_fail (n := n)).bind fun _ _ =>
        .ite (fun _ => th) fun _ => .ite (fun _ => th) fun _ s => .inr ⟨_, s, rfl, by simpa using hlc, by rw [hbs]; omega⟩
    · intro s
      unfold rMagic
      split
      · split
        · exact .inr ⟨_, _, rfl, trivial⟩
        · exact .inl rfl
      · split
        · exact .inl rfl
        · exact .inr ⟨_, _, rfl, trivial⟩
    · intro s
      unfold rSkipReserved
      split
      · exact .inr ⟨_, _, rfl, trivial⟩
      · split
        · exact .inr ⟨_, _, rfl, trivial⟩
        · split
          · exact .inr ⟨_, _, rfl, trivial⟩
          · exact .inr ⟨_, _, rfl, trivial⟩
    · intro s
      unfold rSeekHeader
      split
      · exact .inr ⟨_, _, rfl, trivial⟩
      · split
        · exact .inr ⟨_, _, rfl, trivial⟩
        · split
          · exact .inr ⟨_, _, rfl, trivial⟩
          · exact .inr ⟨_, _, rfl, trivial⟩
  rcases h ⟨file, file.length, false, junk⟩ with h | ⟨⟨bytes, n, q⟩, s, h, hp⟩
  · exact .inl h
  · exact .inr ⟨bytes, n, q, s, h, hp⟩

end Verif.Binary
