import Verif.Compile.Clean

/-! # Steps of calls, loops and modifiers -/

namespace Verif.Compile

open Verif.VM (Code BRes Ctx)
open Verif.Copy (St M upd bindC bindN operand operands runBlock)

variable {σ : Type} {S : Setting σ} {n t : Nat} {s : St σ}

theorem exec_call {f : Str} {ops : List Operand} : exec S.C n (callStmt f ops t) s =
    Copy.runCall S.C (runBlock S.C n) f ops t s := by
  show Copy.runCall S.C (runBlock S.C n) f ops (idxOfInt t) s = _
  rw [idx_cast]

theorem contains_false {f : Str} {xs : List Str} (h : f ∉ xs) : xs.contains f = false := by
  rcases hc : xs.contains f with _ | _
  · rfl
  · exact absurd (List.contains_iff_mem.mp hc) h

/-- A call of a builtin. -/
theorem exec_builtin (A : Agrees S) {f : Str} {ops : List Operand} {vs : List (Option Val)}
    (hf : S.K.isBuiltin f = true) (hs : Inv S s) (hv : OpVals S.C s ops vs) :
    exec S.C n (callStmt f ops t) s =
      match S.W.builtin f vs with
      | .val v => some (.cont, upd s t (some v))
      | .undef => some (.cont, upd s t none)
      | .error _ => none := by
  rw [exec_call]
  refine (bindC (m := Copy.get) (a := s) (e1 := s) rfl).trans ?_
  rw [contains_false (hs.stack f (.inl hf)), if_neg (by decide), A.isB, hf, if_pos rfl]
  refine (bindC hv.run).trans ((bindC (m := Copy.get) (a := s) (e1 := s) rfl).trans ?_)
  rw [A.call _ _ _ hf]
  refine (bindC (m := Copy.modify fun s' : St σ => { s' with bi := s.bi }) (a := ()) (e1 := s)
    rfl).trans ?_
  cases S.W.builtin f vs <;> rfl

/-- A loop. -/
theorem forEach_nil {rb : Block → M σ Code} {k v : Nat} {b : Block} :
    Copy.forEach rb k v b [] s = some (.cont, s) := rfl

theorem forEach_cons {rb : Block → M σ Code} {k v : Nat} {b : Block} {p : Val × Val}
    {ps : List (Val × Val)} : Copy.forEach rb k v b (p :: ps) s =
      match rb b (upd (upd s k (some p.1)) v (some p.2)) with
      | none => none
      | some (.cont, s') => Copy.forEach rb k v b ps s'
      | some (.undef, s') => Copy.forEach rb k v b ps s'
      | some (c, s') => some (c, s') := by
  rcases p with ⟨x, y⟩
  refine (bindC (Copy.write_eq ..)).trans ((bindC (Copy.write_eq ..)).trans ?_)
  rcases h : rb b (upd (upd s k (some x)) v (some y)) with _ | ⟨c, s'⟩
  · exact bindN h
  · refine (bindC h).trans ?_
    cases c <;> rfl

theorem exec_scan {src k v : Nat} {b : Block} (hk : k < 2 ^ 63) (hv : v < 2 ^ 63) :
    exec S.C n (scanStmt src k v b) s = Copy.runScan (runBlock S.C n) src k v b s := by
  show Copy.runScan (runBlock S.C n) (idxOfInt src) (loc k).index (loc v).index b s = _
  rw [idx_cast, loc_index hk, loc_index hv]

theorem runScan_none {rb : Block → M σ Code} {src k v : Nat} {b : Block}
    (h : s.env src = none) : Copy.runScan rb src k v b s = some (.cont, s) := by
  refine (bindC (m := Copy.read src) (a := none) (e1 := s) ?_).trans rfl
  show some (s.env src, s) = _
  rw [h]

theorem runScan_leaf {rb : Block → M σ Code} {src k v : Nat} {b : Block} {l : Leaf}
    (h : s.env src = some (.leaf l)) (hl : ∀ c, l ≠ .err c) :
    Copy.runScan rb src k v b s = some (.undef, s) := by
  refine (bindC (m := Copy.read src) (a := some (.leaf l)) (e1 := s) ?_).trans ?_
  · show some (s.env src, s) = _
    rw [h]
  · cases l with
    | err c => exact absurd rfl (hl c)
    | _ => rfl

theorem runScan_coll {rb : Block → M σ Code} {src k v : Nat} {b : Block} {c : Val}
    (h : s.env src = some c) (hl : ∀ l, c ≠ .leaf l) :
    Copy.runScan rb src k v b s = Copy.forEach rb k v b (Copy.bindings c) s := by
  refine (bindC (m := Copy.read src) (a := some c) (e1 := s) ?_).trans ?_
  · show some (s.env src, s) = _
    rw [h]
  · cases c with
    | leaf l => exact absurd rfl (hl l)
    | _ => rfl

/-- A modifier. -/
theorem exec_with {op : Operand} {d : Nat} {path : List Nat} {b : Block} {value : Option Val}
    (hv : OpVal S.C op s value) : exec S.C n (.mk .with_ op {} d (.with_ path b)) s =
      match Copy.swapped S.C (s.env d) value path with
      | none => none
      | some new =>
        match runBlock S.C n b (upd { s with withCount := s.withCount + 1 } d new) with
        | none => none
        | some (c, s') => some (c, { upd s' d (s.env d) with withCount := s'.withCount - 1 }) := by
  show Copy.runWith S.C (runBlock S.C n) op (idxOfInt d) path b s = _
  rw [idx_cast]
  refine (bindC (m := Copy.modify fun s : St σ => { s with withCount := s.withCount + 1 }) (a := ())
    (e1 := { s with withCount := s.withCount + 1 }) rfl).trans ?_
  refine (bindC (hv.mono (s' := { s with withCount := s.withCount + 1 }) fun _ => rfl)).trans ?_
  refine (bindC (m := Copy.read d) (a := s.env d) (e1 := { s with withCount := s.withCount + 1 })
    rfl).trans ?_
  rcases hsw : Copy.swapped S.C (s.env d) value path with _ | new
  · exact bindN rfl
  · refine (bindC (m := Copy.lift (some new)) (a := new) (e1 := { s with withCount := s.withCount + 1 }) rfl).trans ?_
    refine (bindC (Copy.write_eq ..)).trans ?_
    rcases hb : runBlock S.C n b (upd { s with withCount := s.withCount + 1 } d new) with _ | ⟨c, s'⟩
    · refine (bindN hb).trans ?_
      dsimp only
      rw [hb]
    · refine (bindC hb).trans ((bindC (Copy.write_eq ..)).trans ?_)
      dsimp only
      rw [hb]
      rfl

end Verif.Compile
