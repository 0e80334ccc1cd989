import Verif.Encoding.Query

/-!
# Properties C09-C13: base64, hex, urlquery and URI escapes
-/

namespace Verif.Encoding

/-! ## C09: base64 -/

/-- `base64.encode` and `base64url.encode` give the text of RFC 4648. -/
theorem C09_encode_rfc (url : Bool) (s : Bytes) : b64Encode url s = .ok (Spec.base64 url s) := by
  rw [encode_noPad, Spec.base64, noPad_length]

/-- Decoding an encoded text gives the bytes back, in both alphabets. -/
theorem C09_roundtrip (url : Bool) (s : Bytes) : (b64Encode url s >>= b64Decode) = .ok s := by
  rw [encode_noPad]
  exact decode_noPad url s _ (.inr rfl)

/-- `base64url.encode_no_pad` gives the text without padding, for every string but the
empty one.

Partial: on the empty string the code calls `back()` on an empty string
(`C09_no_pad_empty_wrong`). -/
theorem C09_no_pad_rfc_partial (s : Bytes) (h : s ≠ []) :
    b64EncodeNoPad s = .ok (Spec.base64NoPad true s) := by
  rw [b64EncodeNoPad, encode_noPad]
  simp only [Out.ok_bind]
  rw [List.reverse_append, List.reverse_replicate]
  rcases hr : (Spec.base64NoPad true s).reverse with _ | ⟨c, cs⟩
  · exact absurd (List.reverse_eq_nil_iff.mp hr) (noPad_ne_nil true h)
  · have hc : c ≠ '='.toUInt8 := noPad_noEq true s c (by
      rw [← List.mem_reverse, hr]; simp)
    rw [popPad_rep _ _ _ hc]
    simp only [Out.ok_bind, ← hr, List.reverse_reverse]
    rfl

/-- The text without padding is decoded to the same bytes. -/
theorem C09_no_pad_roundtrip_partial (s : Bytes) (h : s ≠ []) :
    (b64EncodeNoPad s >>= b64Decode) = .ok s := by
  rw [C09_no_pad_rfc_partial s h]
  have := decode_noPad true s [] (.inl rfl)
  rwa [List.append_nil] at this

/-- A text with one character left over is never accepted. -/
theorem C09_rejects_odd (s r : Bytes) (h : b64Decode s = .ok r) : s.length % 4 ≠ 1 := by
  induction s using b64Decode.induct generalizing r with
  | case1 => decide
  | case2 c => simp [b64Decode] at h
  | case3 => simp
  | case4 => simp
  | case5 c0 c1 c2 c3 rest ih1 =>
    have : ∃ r', b64Decode rest = .ok r' := by
      unfold b64Decode at h
      rcases h1 : posOfChar c1 with p1 | _ | _ | _ <;> rw [h1] at h <;> try cases h
      rcases h0 : posOfChar c0 with p0 | _ | _ | _ <;> rw [h0] at h <;> try cases h
      simp only [Out.ok_bind] at h
      split at h
      · rcases hr : b64Decode rest with r' | _ | _ | _ <;> rw [hr] at h <;> try cases h
        exact ⟨_, rfl⟩
      · rcases h2 : posOfChar c2 with p2 | _ | _ | _ <;> rw [h2] at h <;> try cases h
        simp only [Out.ok_bind] at h
        split at h
        · rcases hr : b64Decode rest with r' | _ | _ | _ <;> rw [hr] at h <;> try cases h
          exact ⟨_, rfl⟩
        · rcases h3 : posOfChar c3 with p3 | _ | _ | _ <;> rw [h3] at h <;> try cases h
          simp only [Out.ok_bind] at h
          rcases hr : b64Decode rest with r' | _ | _ | _ <;> rw [hr] at h <;> try cases h
          exact ⟨_, rfl⟩
    obtain ⟨r', hr⟩ := this
    have := ih1 r' hr
    simp
    omega

/-- `base64url.encode_no_pad("")` is undefined behaviour. -/
theorem C09_no_pad_empty_wrong : b64EncodeNoPad [] = .ub := rfl

example : b64Encode false "Rego!".toUTF8.toList = .ok "UmVnbyE=".toUTF8.toList := by decide +kernel
example : b64EncodeNoPad [0xfb, 0xff] = .ok "-_8".toUTF8.toList := by decide +kernel
example : ("x".toUTF8.toList : Bytes) ≠ [] := by decide +kernel

/-! ## C10: hex -/

/-- Where `char` is unsigned, decoding an encoded text gives the bytes back. -/
theorem C10_roundtrip_unsigned (s : Bytes) : hexDecode (hexEncode false s) = .ok s := by
  induction s with
  | nil => rfl
  | cons b s ih =>
    rw [hexEncode, List.flatMap_cons, hexDecode_byte]
    rw [hexEncode] at ih
    rw [ih]
    rfl

/-- Where `char` is signed, every byte from 0x80 on comes back as four bytes. -/
theorem C10_signed (s : Bytes) : hexDecode (hexEncode true s) =
    .ok (s.flatMap fun b => if 128 ≤ b.toNat then [0xff, 0xff, 0xff, b] else [b]) := by
  induction s with
  | nil => rfl
  | cons b s ih =>
    rw [hexEncode, List.flatMap_cons, List.flatMap_cons, hexByte_signed]
    rw [hexEncode] at ih
    split
    · rw [show List.replicate 6 'f'.toUInt8 ++ hexByte false b ++ List.flatMap (hexByte true) s =
        'f'.toUInt8 :: 'f'.toUInt8 :: 'f'.toUInt8 :: 'f'.toUInt8 :: 'f'.toUInt8 :: 'f'.toUInt8 ::
        (hexByte false b ++ List.flatMap (hexByte true) s) from rfl]
      rw [hexDecode_ff, hexDecode_ff, hexDecode_ff, hexDecode_byte, ih]
      rfl
    · rw [hexDecode_byte, ih]
      rfl

/-- The round trip for ASCII text on every platform.

Partial: with a signed `char` it fails on the other bytes (`C10_signed_wrong`). -/
theorem C10_roundtrip_partial (signed : Bool) (s : Bytes) (h : ∀ b ∈ s, b.toNat < 128) :
    hexDecode (hexEncode signed s) = .ok s := by
  cases signed with
  | false => exact C10_roundtrip_unsigned s
  | true =>
    rw [C10_signed]
    congr 1
    induction s with
    | nil => rfl
    | cons b s ih =>
      have hb := h b (by simp)
      rw [List.flatMap_cons, if_neg (by omega), ih fun x hx => h x (List.mem_cons_of_mem _ hx)]
      rfl

/-- `hex.encode("é")` is `"ffffffc3ffffffa9"` on x86, which decodes to eight bytes. -/
theorem C10_signed_wrong :
    hexEncode true [0xc3, 0xa9] = "ffffffc3ffffffa9".toUTF8.toList ∧
    hexDecode (hexEncode true [0xc3, 0xa9]) =
      .ok [0xff, 0xff, 0xff, 0xc3, 0xff, 0xff, 0xff, 0xa9] := by decide +kernel

/-- With an unsigned `char` the text has two lower case digits per byte. -/
theorem C10_text (s : Bytes) : hexEncode false s =
    (s.flatMap (Spec.hex2 "0123456789abcdef")).map Char.toUInt8 := by
  have h : ∀ b : UInt8, hexByte false b = (Spec.hex2 "0123456789abcdef" b).map Char.toUInt8 :=
    forall_byte (by decide +kernel)
  induction s with
  | nil => rfl
  | cons b s ih =>
    rw [hexEncode] at ih ⊢
    rw [List.flatMap_cons, List.flatMap_cons, List.map_append, ih, h]

/-- A text of odd length, and a text with another character, are refused. -/
theorem C10_refused (s : Bytes) : (∃ t, hexDecode s = .ok t) ↔
    s.length % 2 = 0 ∧ ∀ c ∈ s, (Spec.hexVal c).isSome := by
  match s with
  | [] => simp [hexDecode]
  | [_] => simp [hexDecode]
  | x :: y :: rest =>
    have ih := C10_refused rest
    rw [hexDecode]
    simp only [List.length_cons, List.mem_cons, forall_eq_or_imp, hexdigit_eq]
    rw [show (rest.length + 1 + 1) % 2 = rest.length % 2 by omega]
    rcases Spec.hexVal x with _ | h
    · simp
    rcases Spec.hexVal y with _ | l
    · simp
    simp only [Option.isSome_some, true_and]
    rw [← ih]
    rcases hexDecode rest with r | _ | _ | _ <;> simp

example : hexDecode "48656c6C6f".toUTF8.toList = .ok "Hello".toUTF8.toList := by decide +kernel
example : ∀ b ∈ ("Hello".toUTF8.toList : Bytes), b.toNat < 128 := by decide +kernel

/-! ## C11: urlquery -/

theorem uqEncode_pct (s : Bytes) : Spec.Pct (uqEncode s) s := by
  induction s with
  | nil => exact .nil
  | cons c s ih =>
    rw [uqEncode, List.flatMap_cons]
    rcases uqByte_cases c with ⟨h1, h2, _⟩ | h
    · rw [h1]; exact .plain h2 ih
    · rw [h]; exact Pct.pct c ih

/-- Decoding an encoded text gives the bytes back. -/
theorem C11_roundtrip (s : Bytes) : uqDecode (uqEncode s) = .ok s :=
  uqDecode_of_pct (uqEncode_pct s)

/-- The encoded text consists of unreserved characters and percent escapes. -/
theorem C11_text (s : Bytes) : Spec.Escaped Spec.unreserved (uqEncode s) := by
  induction s with
  | nil => exact .nil
  | cons c s ih =>
    rw [uqEncode, List.flatMap_cons]
    rcases uqByte_cases c with ⟨h1, _, h3⟩ | h
    · rw [h1]
      obtain ⟨x, hx, e⟩ := List.mem_map.mp h3
      exact .plain ⟨x, hx, e.symm⟩ ih
    · rw [h]; exact .esc c ih

/-- What the decoder accepts: exactly the texts whose escapes are well formed. -/
theorem C11_decode (s t : Bytes) : uqDecode s = .ok t ↔ Spec.Pct s t :=
  ⟨fun h => pct_of_uqDecode _ s t (Nat.le_refl _) h, uqDecode_of_pct⟩

/-- A bad escape is not reported as an error: it is undefined behaviour. -/
theorem C11_bad_escape_wrong (s : Bytes) : (∀ t, ¬ Spec.Pct s t) ↔ uqDecode s = .ub := by
  have hub : ∀ n (s : Bytes), s.length ≤ n → uqDecode s ≠ .err ∧ uqDecode s ≠ .throws := by
    intro n
    induction n with
    | zero => intro s hs; cases s with | nil => exact ⟨by decide, by decide⟩ | cons _ _ => simp at hs
    | succ n ih =>
      intro s hs
      match s with
      | [] => exact ⟨by decide, by decide⟩
      | c :: rest =>
        simp only [List.length_cons] at hs
        unfold uqDecode
        split
        · match rest with
          | [] => exact ⟨by decide, by decide⟩
          | [_] => exact ⟨by simp, by simp⟩
          | x :: y :: rest' =>
            simp only
            rcases hexdigit x with _ | hx
            · exact ⟨by simp, by simp⟩
            rcases hexdigit y with _ | hy
            · exact ⟨by simp, by simp⟩
            have := ih rest' (by simp only [List.length_cons] at hs; omega)
            revert this
            rcases uqDecode rest' with _ | _ | _ | _ <;> simp
        · have := ih rest (by omega)
          revert this
          rcases uqDecode rest with _ | _ | _ | _ <;> simp
  constructor
  · intro h
    have := hub _ s (Nat.le_refl _)
    rcases e : uqDecode s with t | _ | _ | _
    · exact absurd ((C11_decode s t).mp e) (h t)
    · exact absurd e this.1
    · exact absurd e this.2
    · rfl
  · intro h t ht
    rw [uqDecode_of_pct ht] at h
    cases h

example : uqEncode "a b&ü".toUTF8.toList = "a%20b%26%C3%BC".toUTF8.toList := by decide +kernel
example : uqDecode "100%".toUTF8.toList = .ub := by decide +kernel

/-! ## C12: urlquery.decode_object -/

/-- A query with at least one `&`, whose escapes are well formed, is turned into the
object of its parameters.

Partial: a query without `&` gives every value twice (`C12_single_doubled`). -/
theorem C12_decode_object_partial (q : Bytes) (hlen : q.length < 2 ^ 64 - 1)
    (ps : List (Bytes × Bytes)) (hps : Spec.Params (Spec.segments [] q) ps)
    (h : '&'.toUInt8 ∈ q) :
    ∃ m, uqDecodeObject q = .ok (some m) ∧ Spec.IsObject m ps := by
  refine ⟨_, ?_, pushAll_object ps⟩
  rw [uqDecodeObject_sep q hlen h]
  refine uqFold_params hps (fun seg hseg => ?_) []
  have := segments_length q [] seg hseg
  simp only [List.length_nil, Nat.zero_add] at this
  exact Nat.lt_of_le_of_lt this hlen

/-- A nonempty query without `&`: its parameter is added twice. -/
theorem C12_single_doubled (q k v : Bytes) (hlen : q.length < 2 ^ 64 - 1) (hq : q ≠ [])
    (h : '&'.toUInt8 ∉ q) (hp : Spec.Param q k v) :
    uqDecodeObject q = .ok (some [(k, [v, v])]) := by
  rw [uqDecodeObject_single q hlen h hq]
  rw [uqFold_params (.cons hp (.cons hp .nil)) (by simpa [npos] using hlen)]
  simp [pushAll, mapPush]

/-- `urlquery.decode_object("a=1")` is `{"a": ["1", "1"]}`. -/
theorem C12_single_wrong : uqDecodeObject "a=1".toUTF8.toList =
    .ok (some [("a".toUTF8.toList, ["1".toUTF8.toList, "1".toUTF8.toList])]) := by decide +kernel

example : uqDecodeObject "a=1&b=%20&a=2".toUTF8.toList =
    .ok (some [("a".toUTF8.toList, ["1".toUTF8.toList, "2".toUTF8.toList]),
      ("b".toUTF8.toList, [" ".toUTF8.toList])]) := by decide +kernel

/-- A query meeting the hypotheses of `C12_decode_object_partial`. -/
example : Spec.Params (Spec.segments [] "a=1&b".toUTF8.toList)
    [("a".toUTF8.toList, "1".toUTF8.toList), ("b".toUTF8.toList, [])] := by
  have hs : Spec.segments [] "a=1&b".toUTF8.toList = [[97, 61, 49], [98]] := by decide +kernel
  have ha : "a".toUTF8.toList = [97] := by decide +kernel
  have h1 : "1".toUTF8.toList = [49] := by decide +kernel
  have hb : "b".toUTF8.toList = [98] := by decide +kernel
  rw [hs, ha, h1, hb]
  refine .cons (Spec.Param.assign (a := [97]) (b := [49]) (by decide)
    (.plain (by decide) .nil) (.plain (by decide) .nil)) (.cons (.bare (by decide)
    (.plain (by decide) .nil)) .nil)

/-! ## C13: URI paths -/

theorem escapePath_pct (s : Bytes) : Spec.Pct (escapePath s) s := by
  induction s with
  | nil => exact .nil
  | cons c s ih =>
    rw [escapePath, List.flatMap_cons]
    rcases escapeByte_cases c with ⟨h1, h2, _⟩ | ⟨h1, h2⟩
    · rw [h1]; exact .plain h2 ih
    · rw [h1, if_pos rfl, h2]; exact Pct.pct c ih

/-- Unescaping an escaped path gives the path back. -/
theorem C13_roundtrip (s : Bytes) : unescape (escapePath s) = some s :=
  unescape_of_pct (escapePath_pct s)

/-- An escaped path consists of characters that stand for themselves in a path and of
percent escapes. -/
theorem C13_text (s : Bytes) : Spec.Escaped Spec.plainInPath (escapePath s) := by
  induction s with
  | nil => exact .nil
  | cons c s ih =>
    rw [escapePath, List.flatMap_cons]
    rcases escapeByte_cases c with ⟨h1, _, h3⟩ | ⟨h1, h2⟩
    · rw [h1]
      refine .plain ?_ ih
      have e : "ABCDEFGHIJKLMNOPQRSTUVWXYZabcdefghijklmnopqrstuvwxyz0123456789-._~$&+,/:;=@".toList =
        "ABCDEFGHIJKLMNOPQRSTUVWXYZabcdefghijklmnopqrstuvwxyz0123456789-._~".toList ++
        "$&+,/:;=@".toList := by decide +kernel
      rw [e, List.map_append, List.mem_append] at h3
      rcases h3 with h3 | h3 <;> obtain ⟨x, hx, e⟩ := List.mem_map.mp h3
      · exact .inl ⟨x, hx, e.symm⟩
      · exact .inr ⟨x, hx, e.symm⟩
    · rw [h1, if_pos rfl, h2]; exact .esc c ih

/-- What `unescape` accepts and returns. -/
theorem C13_unescape (s t : Bytes) : unescape s = some t ↔ Spec.Pct s t := by
  refine ⟨fun h => ?_, unescape_of_pct⟩
  rw [unescape_eq] at h
  split at h
  · rename_i r hr
    cases h
    exact (C11_decode s _).mp hr
  · cases h

example : escapePath "/a b/%41".toUTF8.toList = "/a%20b/%2541".toUTF8.toList := by decide +kernel

end Verif.Encoding
