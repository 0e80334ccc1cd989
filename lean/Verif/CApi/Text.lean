import Verif.Common.Out

/-!
# C53: texts of the C API (src/rego_c.cc)

A buffer of the caller is the list of its bytes. The texts themselves (the error message,
the JSON of a node, …) are arbitrary bytes.
-/

namespace Verif.CApi

/-- The texts that the API exposes through a size and a fetch function. -/
inductive Text where
  | error | buildInfo | version | nodeTypeName | nodeValue | nodeJSON | outputJSON
  deriving DecidableEq, Repr

/-- Return codes, include/rego/rego_c.h 45-52. -/
inductive Code where
  | ok | error | tooSmall | inputNull | missingArguments | objectItem
  deriving DecidableEq, Repr

/-- The size functions: `regoErrorSize` src/rego_c.cc 118-126, `regoBuildInfoSize` 148-152,
`regoVersionSize` 170-174, `regoOutputJSONSize` 957-962, `regoNodeTypeNameSize` 1115-1119
(no `+ 1`), `regoNodeValueSize` 1138-1144, `regoNodeJSONSize` 1193-1201. `regoSize` has 32
bits (rego_c.h 35). -/
def sizeOf : Text → Bytes → Nat
  | .nodeTypeName, t => t.length % 2 ^ 32
  | _, t => (t.length + 1) % 2 ^ 32

/-- The fetch functions: `regoError` 128-146, `regoBuildInfo` 154-168, `regoVersion` 176-189,
`regoOutputJSON` 964-978, `regoNodeTypeName` 1121-1136, `regoNodeValue` 1146-1160,
`regoNodeJSON` 1203-1219, which are all the same: `size` is what the caller says, and the
bytes are written to the buffer without further checks. -/
def fetch (_ : Text) (t : Bytes) (buffer : Bytes) (size : Nat) : Out (Code × Bytes) :=
  if size < t.length + 1 then .ok (.tooSmall, buffer)
  else if buffer.length < t.length + 1 then .ub
  else .ok (.ok, t ++ 0 :: buffer.drop (t.length + 1))

/-- **C53, partial: size, then fetch.** For every text shorter than 4 GiB other than the
name of a node's type: a buffer of the size reported is filled with the text and a final
NUL.

Missing: the name of a type (`C53_type_name_wrong`). -/
theorem C53_size_then_fetch_partial (x : Text) (t buffer : Bytes) (hx : x ≠ .nodeTypeName)
    (ht : t.length + 1 < 2 ^ 32) (hb : buffer.length = sizeOf x t) :
    fetch x t buffer (sizeOf x t) = .ok (.ok, t ++ [0]) := by
  have hs : sizeOf x t = t.length + 1 := by
    cases x with
    | nodeTypeName => exact absurd rfl hx
    | _ => exact Nat.mod_eq_of_lt ht
  rw [hs] at hb ⊢
  unfold fetch
  rw [if_neg (by omega), if_neg (by omega), List.drop_eq_nil_of_le (by omega)]

/-- **C53: any buffer.** Whatever the size given by the caller, as long as the buffer has
that many bytes: the call succeeds exactly when the text and a NUL fit, and then writes
them at the start and leaves the other bytes alone; otherwise nothing is written. It never
writes outside the buffer. -/
theorem C53_any_buffer (x : Text) (t buffer : Bytes) (size : Nat) (hb : size ≤ buffer.length) :
    (t.length < size → ∃ rest, fetch x t buffer size = .ok (.ok, t ++ 0 :: rest) ∧
      buffer.length = t.length + 1 + rest.length ∧ rest = buffer.drop (t.length + 1)) ∧
    (size ≤ t.length → fetch x t buffer size = .ok (.tooSmall, buffer)) := by
  refine ⟨fun h => ⟨buffer.drop (t.length + 1), ?_, ?_, rfl⟩, fun h => ?_⟩
  · unfold fetch
    rw [if_neg (by omega), if_neg (by omega)]
  · rw [List.length_drop]; omega
  · unfold fetch
    rw [if_pos (by omega)]

example : fetch .nodeJSON [123, 125] [9, 9, 9, 9] 3 = .ok (.ok, [123, 125, 0, 9]) ∧
    fetch .nodeJSON [123, 125] [9, 9, 9, 9] 2 = .ok (.tooSmall, [9, 9, 9, 9]) ∧
    sizeOf .nodeJSON [123, 125] = 3 := by decide

/-- The size reported for the name of a type is never enough. -/
theorem C53_type_name_wrong (t buffer : Bytes) :
    fetch .nodeTypeName t buffer (sizeOf .nodeTypeName t) = .ok (.tooSmall, buffer) := by
  unfold fetch
  have : sizeOf .nodeTypeName t ≤ t.length := Nat.mod_le _ _
  rw [if_pos (by omega)]

/-- For a text of 4 GiB or more the size reported is not enough either. -/
theorem C53_large_wrong (x : Text) (t buffer : Bytes) (ht : 2 ^ 32 ≤ t.length) :
    fetch x t buffer (sizeOf x t) = .ok (.tooSmall, buffer) := by
  unfold fetch
  have : sizeOf x t < 2 ^ 32 := by
    cases x <;> exact Nat.mod_lt _ (by decide)
  rw [if_pos (by omega)]

end Verif.CApi
