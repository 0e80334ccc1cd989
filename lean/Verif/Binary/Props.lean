import Verif.Binary.Header
import Verif.Binary.Crc
import Verif.Value.Spec

/-!
# C36, C37, C38, C39: the binary format of bundles
-/

namespace Verif.Binary

open Spec

/-! ## C36: saving and loading -/

theorem le_mod (k n : Nat) : le k (n % 256 ^ k) = le k n := by
  have := le_ofLe (le k n)
  rwa [le_length, ofLe_le] at this

theorem save_eq {L : Lib} {b : BundleDef} {file : Bytes} (h : save L b = .ok file) : ∃ bs ptrs,
    payload L b = .ok (bs, ptrs) ∧ ptrs.length = 4 ∧ file = header b.core.queryPlan b.core.localCount bs ptrs ++ bs := by
  unfold save at h
  cases hp : payload L b with
  | ok r =>
    obtain ⟨bs, ptrs⟩ := r
    rw [hp] at h
    cases h
    refine ⟨bs, ptrs, rfl, ?_, rfl⟩
    unfold payload at hp
    cases h1 : wSection 2 Plan.name wPlan b.core.plans (64 + (wStatic b).length) with
    | ok r1 =>
      obtain ⟨ps, p1⟩ := r1
      simp only [h1, Out.ok_bind] at hp
      cases h2 : wSection 3 Function.name wFunc b.core.functions (64 + (wStatic b).length + ps.length) with
      | ok r2 =>
        obtain ⟨fs, p2⟩ := r2
        simp only [h2, Out.ok_bind] at hp
        cases h3 : wData L b with
        | ok d =>
          simp only [h3, Out.ok_bind, Out.pure_eq] at hp
          cases hp
          rfl
        | err => simp only [h3, Out.err_bind] at hp; cases hp
        | throws => simp only [h3, Out.throws_bind] at hp; cases hp
        | ub => simp only [h3, Out.ub_bind] at hp; cases hp
      | err => simp only [h2, Out.err_bind] at hp; cases hp
      | throws => simp only [h2, Out.throws_bind] at hp; cases hp
      | ub => simp only [h2, Out.ub_bind] at hp; cases hp
    | err => simp only [h1, Out.err_bind] at hp; cases hp
    | throws => simp only [h1, Out.throws_bind] at hp; cases hp
    | ub => simp only [h1, Out.ub_bind] at hp; cases hp
  | err => rw [hp] at h; cases h
  | throws => rw [hp] at h; cases h
  | ub => rw [hp] at h; cases h

/-- A header with any payload behind it has the layout, with the checksum of the payload for
which the header was made. -/
theorem header_layout (q : Option Nat) (n : Nat) (bs p rest : Bytes) {ptrs : List Nat} (hp : ptrs.length = 4)
    (hl : p.length = bs.length) (hs : p.length ≤ 256 * 1024 * 1024) :
    Layout (header q n bs ptrs ++ (p ++ rest)) (wQueryPlan q) (n % 2 ^ 32) (crc32 0#32 bs).toNat p rest := by
  refine ⟨⟨[0, 0, 0, 0, 0], ptrs.flatMap (le 8), rfl, by rw [flatMap_le8, hp], ?_⟩, ⟨Nat.mod_lt _ (by omega), (crc32 0#32 bs).isLt⟩, hs⟩
  have e : le 4 (n % 2 ^ 32) = le 4 n := le_mod 4 n
  rw [e, hl]
  simp only [header, List.append_assoc, List.cons_append, wSize]
  rfl

theorem load_layout {E : Env} {junk : Nat → Nat} {file : Bytes} {q : UInt8} {n : Nat} {p rest : Bytes}
    (h : Layout file q n (crc32 0#32 p).toNat p rest) :
    load E junk file = match rBundle E n q ⟨p, p.length, false, junk⟩ with
      | .ok (b, _) => .ok b
      | .err => .err
      | .throws => .throws
      | .ub => .ub := by
  obtain ⟨s, hj, hr⟩ := header_run (E := E) (total := file.length) (junk := junk) h
  rw [if_neg (by simp)] at hr
  unfold load
  rw [hr]
  simp only [hj]
  cases rBundle E n q ⟨p, p.length, false, junk⟩ <;> rfl

/-- **C36.** A bundle within the limits of the format can be saved, and if the file is not
larger than 256 MiB, loading it gives the same bundle, up to the normalisation `norm`. -/
theorem C36_roundtrip {E : Env} {L : Lib} {b : BundleDef} (h : Fits E L b) : ∃ file, save L b = .ok file ∧
    (file.length ≤ 64 + 256 * 1024 * 1024 → ∀ junk, load E junk file = .ok (norm L b)) := by
  obtain ⟨bs, ptrs, h1, h2, h3⟩ := parses_bundle h (queryByte h.queryPlan)
  refine ⟨header b.core.queryPlan b.core.localCount bs ptrs ++ bs, ?_, ?_⟩
  · unfold save
    rw [h1]
    rfl
  · intro hl junk
    rw [List.length_append, header_length _ _ _ h2] at hl
    have hlay := header_layout b.core.queryPlan b.core.localCount bs bs [] h2 rfl (by omega)
    rw [List.append_nil, Nat.mod_eq_of_lt h.locals] at hlay
    rw [load_layout hlay]
    have := h3 [] bs.length junk (by simp) (by omega)
    rw [List.append_nil] at this
    rw [this]

theorem empty_throws {E : Env} {n : Nat} {q : UInt8} {total : Nat} {junk : Nat → Nat} :
    rBundle E n q ⟨[], total, false, junk⟩ = .throws := by
  unfold rBundle
  exact R.bind_throws rfl

theorem load_inv {E : Env} {junk : Nat → Nat} {file : Bytes} {b : BundleDef} (h : load E junk file = .ok b) :
    ∃ q n payload rest s, Layout file q n (crc32 0#32 payload).toNat payload rest ∧
      rBundle E n q ⟨payload, payload.length, false, junk⟩ = .ok (b, s) := by
  unfold load at h
  split at h
  · rename_i bytes n q s hh
    split at h
    · rename_i b' s' hb
      cases h
      have hne : bytes ≠ [] := by
        rintro rfl
        rw [empty_throws] at hb
        cases hb
      obtain ⟨hj, rest, hl⟩ := header_inv hh hne
      rw [hj] at hb
      exact ⟨q, n, bytes, rest, s', hl, hb⟩
    all_goals cases h
  all_goals cases h

theorem layout_length {file : Bytes} {q : UInt8} {n crc : Nat} {p rest : Bytes} (h : Layout file q n crc p rest) :
    file.length = 64 + (p.length + rest.length) := by
  obtain ⟨⟨reserved, ptrs, hr, hp, e⟩, _, _⟩ := h
  have m8 : (enc "REGOBUND".toList).length = 8 := by decide
  rw [e]
  simp only [List.length_append, List.length_cons, le_length, hr, hp, m8]
  omega

/-- **C36.** Whatever bytes a bundle was loaded from, it is within the limits, and saving and
loading it again gives the same bundle. -/
theorem C36_reload {E : Env} (L : Lib) {junk : Nat → Nat} {file : Bytes} {b : BundleDef} (hd : E.debug = false)
    (hs : file.length ≤ E.stack) (h : load E junk file = .ok b) : ∃ file', save L b = .ok file' ∧
      (file'.length ≤ 64 + 256 * 1024 * 1024 → ∀ junk', load E junk' file' = .ok b) := by
  obtain ⟨q, n, p, rest, s, hl, hb⟩ := load_inv h
  have hlen := layout_length hl
  rcases safe_bundle (n := p.length) L hd (by omega) hl.small.1 q ⟨p, p.length, false, junk⟩ (Nat.le_refl _) with
    h' | ⟨b', s', h', ⟨hf, hn⟩, _⟩
  · rw [hb] at h'
    cases h'
  · rw [hb] at h'
    cases h'
    have := C36_roundtrip hf
    rwa [hn] at this

/-- Every loaded bundle is within the limits of the format. -/
theorem loaded_fits {E : Env} (L : Lib) {junk : Nat → Nat} {file : Bytes} {b : BundleDef} (hd : E.debug = false)
    (hs : file.length ≤ E.stack) (h : load E junk file = .ok b) : Fits E L b ∧ norm L b = b := by
  obtain ⟨q, n, p, rest, s, hl, hb⟩ := load_inv h
  have hlen := layout_length hl
  rcases safe_bundle (n := p.length) L hd (by omega) hl.small.1 q ⟨p, p.length, false, junk⟩ (Nat.le_refl _) with
    h' | ⟨b', s', h', hf, _⟩
  · rw [hb] at h'
    cases h'
  · rw [hb] at h'
    cases h'
    exact hf

mutual
theorem json_same (L : Lib) : ∀ v : Val, Json v → Same v (normVal L v)
  | .leaf l, _ => by
    cases l <;> simp only [normVal, Same, SameLeaf]
    rw [strip_quoted]
  | .arr xs, h => by
    rw [normVal, Same]
    exact jsons_same L xs h
  | .set xs, h => h.elim
  | .obj kvs, h => by
    rw [normVal, Same, allKV_iff]
    have := jsonKvs_same L kvs h
    refine ⟨?_, ?_⟩
    · intro p hp
      obtain ⟨q, hq, h1⟩ := this.1 p hp
      exact ⟨q, hq, h1⟩
    · intro q hq
      rw [anyKV_iff]
      exact this.2 q hq
theorem jsons_same (L : Lib) : ∀ xs : List Val, Jsons xs → SameL xs (normVals L xs)
  | [], _ => by rw [normVals, SameL]; trivial
  | x :: xs, h => by rw [normVals, SameL]; exact ⟨json_same L x h.1, jsons_same L xs h.2⟩
theorem jsonKvs_same (L : Lib) : ∀ kvs : List (Val × Val), JsonKvs kvs →
    (∀ p ∈ kvs, ∃ q ∈ normKvs L kvs, Same p.1 q.1 ∧ Same p.2 q.2) ∧
    (∀ q ∈ normKvs L kvs, ∃ p ∈ kvs, Same p.1 q.1 ∧ Same p.2 q.2)
  | [], _ => ⟨by simp, by simp [normKvs]⟩
  | (k, v) :: kvs, h => by
    obtain ⟨⟨s, rfl⟩, hv, hk⟩ := h
    have h1 := json_same L v hv
    have h2 := jsonKvs_same L kvs hk
    have hs : Same (.leaf (.str s)) (.leaf (.str (quoted (stripQuotes (Val.toKey L (.leaf (.str s))))))) := by
      rw [Val.toKey, Leaf.toKey, addQuotes_eq, stripQuotes_quote]
      simp only [Same, SameLeaf, strip_quoted]
    rw [normKvs]
    refine ⟨?_, ?_⟩
    · intro p hp
      rcases List.mem_cons.mp hp with rfl | hp
      · exact ⟨_, List.mem_cons_self, hs, h1⟩
      · obtain ⟨q, hq, h⟩ := h2.1 p hp
        exact ⟨q, by simp [hq], h⟩
    · intro q hq
      rcases List.mem_cons.mp hq with rfl | hq
      · exact ⟨_, List.mem_cons_self, hs, h1⟩
      · obtain ⟨p, hp, h⟩ := h2.2 q hq
        exact ⟨p, by simp [hp], h⟩
end

/-- **C36.** The normalisation does not change a JSON data document: it is the same value,
item by item, before and after. -/
theorem C36_data (L : Lib) {data : List (Val × Val)} (h : JsonKvs data) : Same (.obj data) (.obj (normKvs L data)) := by
  have := json_same L (.obj data) h
  rwa [normVal] at this

/-! ## C37: the checksum -/

theorem bits_length (m : Bytes) : (bits m).length = 8 * m.length := by
  induction m with
  | nil => rfl
  | cons b m ih =>
    have : bits (b :: m) = byteBits b ++ bits m := rfl
    rw [this, List.length_append, ih, List.length_cons]
    simp [byteBits]
    omega

theorem burst_length {m m' : Bytes} (h : Burst m m') : m'.length = m.length := by
  obtain ⟨pre, w, w', post, e1, e2, hl, _, _⟩ := h
  have h1 := bits_length m
  have h2 := bits_length m'
  rw [e1] at h1
  rw [e2] at h2
  simp only [List.length_append] at h1 h2
  omega

/-- **C37.** If the payload of a saved bundle is changed in a window of at most 32 bits,
loading throws. -/
theorem C37_burst {E : Env} {L : Lib} {b : BundleDef} {file p : Bytes} (h : save L b = .ok file)
    (hl : file.length ≤ 64 + 256 * 1024 * 1024) (hb : Burst (file.drop 64) p) (junk : Nat → Nat) :
    load E junk (file.take 64 ++ p) = .throws := by
  obtain ⟨bs, ptrs, _, h2, rfl⟩ := save_eq h
  have hh := header_length b.core.queryPlan b.core.localCount bs h2
  rw [List.drop_left' hh] at hb
  rw [List.take_left' hh]
  have hpl := burst_length hb
  rw [List.length_append, hh] at hl
  have hlay := header_layout b.core.queryPlan b.core.localCount bs p [] h2 hpl (by omega)
  rw [List.append_nil] at hlay
  obtain ⟨s, _, hr⟩ := header_run (E := E) (total := (header b.core.queryPlan b.core.localCount bs ptrs ++ p).length)
    (junk := junk) hlay
  have hne : crc32 0#32 p ≠ BitVec.ofNat 32 (crc32 0#32 bs).toNat := by
    rw [BitVec.ofNat_toNat, BitVec.setWidth_eq]
    exact fun e => crc_burst 0#32 hb e.symm
  rw [if_pos hne] at hr
  unfold load
  rw [hr]

theorem le_inj {k m n : Nat} (hm : m < 256 ^ k) (hn : n < 256 ^ k) (h : le k m = le k n) : m = n := by
  have := congrArg ofLe h
  rwa [ofLe_le, ofLe_le, Nat.mod_eq_of_lt hm, Nat.mod_eq_of_lt hn] at this

/-- A file has the layout in one way, even if only a prefix of it is known. -/
theorem layout_unique {file ext : Bytes} {q q' : UInt8} {n n' crc crc' : Nat} {p p' r r' : Bytes}
    (h : Layout file q n crc p r) (h' : Layout (file ++ ext) q' n' crc' p' r') :
    q = q' ∧ n = n' ∧ crc = crc' ∧ p = p' ∧ r ++ ext = r' := by
  obtain ⟨⟨res, ptrs, hr, hp, e⟩, ⟨hn, hc⟩, hs⟩ := h
  obtain ⟨⟨res', ptrs', hr', hp', e'⟩, ⟨hn', hc'⟩, hs'⟩ := h'
  rw [e] at e'
  simp only [List.append_assoc, List.cons_append] at e'
  have e1 := List.append_cancel_left e'
  simp only [List.cons.injEq, true_and] at e1
  obtain ⟨rfl, e1⟩ := e1
  have e2 := (List.append_inj e1 (by omega)).2
  obtain ⟨e3, e4⟩ := List.append_inj e2 (by rw [le_length, le_length])
  obtain ⟨e5, e6⟩ := List.append_inj e4 (by rw [le_length, le_length])
  obtain ⟨e7, e8⟩ := List.append_inj e6 (by rw [le_length, le_length])
  have e9 := (List.append_inj e8 (by omega)).2
  have hl := le_inj (by omega) (by omega) e7
  obtain ⟨e10, e11⟩ := List.append_inj e9 hl
  exact ⟨rfl, le_inj (by simpa using hn) (by simpa using hn') e3, le_inj (by simpa using hc) (by simpa using hc') e5, e10, e11⟩

/-- **C37.** The same for any file that loads, whatever the rest of the header says. -/
theorem C37_burst_any {E : Env} {junk junk' : Nat → Nat} {file file' : Bytes} {b : BundleDef} {q q' : UInt8} {n n' crc : Nat}
    {p p' rest rest' : Bytes} (h : load E junk file = .ok b) (hf : Layout file q n crc p rest)
    (hf' : Layout file' q' n' crc p' rest') (hb : Burst p p') : load E junk' file' = .throws := by
  obtain ⟨q0, n0, p0, r0, s, hl, _⟩ := load_inv h
  obtain ⟨_, _, hc, hp, _⟩ := layout_unique (ext := []) hf (by rwa [List.append_nil])
  subst hp
  obtain ⟨s, _, hr⟩ := header_run (E := E) (total := file'.length) (junk := junk') hf'
  have hne : crc32 0#32 p' ≠ BitVec.ofNat 32 crc := by
    rw [hc, BitVec.ofNat_toNat, BitVec.setWidth_eq]
    exact fun e => crc_burst 0#32 hb e.symm
  rw [if_pos hne] at hr
  unfold load
  rw [hr]

/-- The header is not covered by the checksum: the number of locals of a saved bundle can be
changed to any other without being noticed. -/
theorem C37_header_wrong {E : Env} {L : Lib} {b : BundleDef} (h : Fits E L b) {n : Nat} (hn : n < 2 ^ 32) :
    ∃ file, save L b = .ok file ∧ (file.length ≤ 64 + 256 * 1024 * 1024 → ∀ junk,
      load E junk (file.take 16 ++ (le 4 n ++ file.drop 20)) =
        .ok { norm L b with core := { (norm L b).core with localCount := n } }) := by
  obtain ⟨file, h1, h2⟩ := C36_roundtrip h
  have hfit : Fits E L { b with core := { b.core with localCount := n } } :=
    ⟨h.files, h.strings, h.builtins, h.sorted, h.query, h.plans, h.funcs, h.planNames, h.funcNames, h.data, hn, h.queryPlan⟩
  obtain ⟨file', h1', h2'⟩ := C36_roundtrip hfit
  obtain ⟨bs, ptrs, hp, hp4, rfl⟩ := save_eq h1
  obtain ⟨bs', ptrs', hp', _, rfl⟩ := save_eq h1'
  have e : payload L { b with core := { b.core with localCount := n } } = payload L b := rfl
  rw [e, hp] at hp'
  cases hp'
  refine ⟨_, h1, fun hl junk => ?_⟩
  have e2 : (header b.core.queryPlan b.core.localCount bs ptrs ++ bs).take 16 ++ (le 4 n ++
      (header b.core.queryPlan b.core.localCount bs ptrs ++ bs).drop 20) = header b.core.queryPlan n bs ptrs ++ bs := by
    have f : ∀ m, header b.core.queryPlan m bs ptrs ++ bs =
        (magic ++ [1, 1, wQueryPlan b.core.queryPlan, 0, 0, 0, 0, 0]) ++ (le 4 m ++ (le 4 (crc32 0#32 bs).toNat ++
          (le 8 bs.length ++ (ptrs.flatMap (le 8) ++ bs)))) := by
      intro m
      simp [header, wSize]
    have l16 : (magic ++ [1, 1, wQueryPlan b.core.queryPlan, 0, 0, 0, 0, 0]).length = 16 := rfl
    rw [f, f, List.take_left' l16, ← List.append_assoc _ (le 4 b.core.localCount), List.drop_left' (by
      rw [List.length_append, l16, le_length])]
  rw [e2]
  refine h2' ?_ junk
  rw [List.length_append, header_length _ _ _ hp4] at hl ⊢
  exact hl

/-! ## C38: files that are rejected -/

/-- **C38.** A file that loads has the magic bytes, the versions, a declared size of at most 256 MiB
that the file really holds, and the right checksum; `junk` are the values of uninitialised
variables. Missing: bytes after the payload are not rejected (C38_overlong_wrong). -/
theorem C38_rejects_partial {E : Env} {junk : Nat → Nat} {file : Bytes} {b : BundleDef} (h : load E junk file = .ok b) :
    ∃ q payload rest, Layout file q b.core.localCount (crc32 0#32 payload).toNat payload rest := by
  obtain ⟨q, n, p, rest, s, hl, hb⟩ := load_inv h
  have : b.core.localCount = n := by
    unfold rBundle at hb
    iterate 10 (obtain ⟨_, _, _, hb⟩ := R.bind_inv hb)
    cases hb
    rfl
  exact ⟨q, p, rest, this ▸ hl⟩

/-- **C38.** A saved file that has been cut off anywhere does not load. -/
theorem C38_truncated {E : Env} {L : Lib} {b b' : BundleDef} {file : Bytes} (h : save L b = .ok file)
    (hl : file.length ≤ 64 + 256 * 1024 * 1024) {k : Nat} (hk : k < file.length) (junk : Nat → Nat) :
    load E junk (file.take k) ≠ .ok b' := by
  intro hload
  obtain ⟨q, n, p, rest, s, hlay, _⟩ := load_inv hload
  obtain ⟨bs, ptrs, _, h2, rfl⟩ := save_eq h
  have hh := header_length b.core.queryPlan b.core.localCount bs h2
  have hlen := hl
  rw [List.length_append, hh] at hlen
  have hlay' := header_layout b.core.queryPlan b.core.localCount bs bs [] h2 rfl (by omega)
  rw [List.append_nil] at hlay'
  obtain ⟨_, _, _, hp, _⟩ := layout_unique (ext := (header b.core.queryPlan b.core.localCount bs ptrs ++ bs).drop k) hlay
    (by rwa [List.take_append_drop])
  have := layout_length hlay
  rw [List.length_take, List.length_append, hh] at this
  rw [List.length_append, hh] at hk
  subst hp
  omega

/-- Files that are too long are not rejected: whatever is appended to a file, it loads as
before. -/
theorem C38_overlong_wrong {E : Env} {junk : Nat → Nat} {file : Bytes} {b : BundleDef} (h : load E junk file = .ok b)
    (extra : Bytes) : load E junk (file ++ extra) = .ok b := by
  obtain ⟨q, n, p, rest, s, hl, hb⟩ := load_inv h
  have hl' : Layout (file ++ extra) q n (crc32 0#32 p).toNat p (rest ++ extra) := by
    obtain ⟨⟨res, ptrs, hr, hp, e⟩, h2, h3⟩ := hl
    exact ⟨⟨res, ptrs, hr, hp, by rw [e]; simp⟩, h2, h3⟩
  rw [load_layout hl', hb]

/-! ## C39: arbitrary bytes -/

/-- **C39.** On any bytes whatsoever, and whatever the values of uninitialised variables, the
loader of a release build throws or returns a bundle, provided that the stack is as deep as the
file is long. Missing: the stack (C39_stack_wrong), assertions of a debug build
(C39_assert_wrong), and the memory that is allocated for a string of the data document before
its size has been compared with what is left of the file. -/
theorem C39_safe_partial {E : Env} (hd : E.debug = false) {file : Bytes} (hs : file.length < E.stack) (junk : Nat → Nat) :
    load E junk file = .throws ∨ ∃ b, load E junk file = .ok b := by
  have L : Lib := (Double.ieeeLib id)
  rcases header_safe E file junk with h | ⟨bytes, n, q, s, h, hn, _⟩
  · unfold load
    rw [h]
    exact .inl rfl
  · unfold load
    rw [h]
    have hb : bytes.length < E.stack := by
      by_cases hne : bytes = []
      · subst hne
        simp only [List.length_nil]
        omega
      · obtain ⟨_, rest, hl⟩ := header_inv h hne
        have := layout_length hl
        omega
    rcases safe_bundle L hd hb hn q ⟨bytes, bytes.length, false, s.junk⟩ (Nat.le_refl _) with h' | ⟨b, s', h', _, _⟩
    · simp [h']
    · simp only [h']
      exact .inr ⟨b, rfl⟩

/-- **C39.** Whatever the bytes, a bundle that comes out is within the limits: no list is longer
than its limit, no text longer than 16 MiB, nothing nested more deeply than 256 blocks or
documents. -/
theorem C39_limits {E : Env} (L : Lib) {junk : Nat → Nat} {file : Bytes} {b : BundleDef} (hd : E.debug = false)
    (hs : file.length ≤ E.stack) (h : load E junk file = .ok b) : Fits E L b :=
  (loaded_fits L hd hs h).1

end Verif.Binary
