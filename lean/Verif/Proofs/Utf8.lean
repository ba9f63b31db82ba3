import Verif.Model.Layout
import Mathlib.Tactic.Conv

/-! # Lemmas about UTF-8 and percent-encoding -/

namespace Ocfl

theorem utf8_eq (s : Str) : ByteArray.mk (utf8 s).toArray = s.utf8Encode := by
  unfold utf8 List.utf8Encode
  apply ByteArray.ext
  rw [List.data_toByteArray]

theorem utf8Encode_ascii {x : UInt8} (h : x.toNat < 128) : String.utf8EncodeChar (Char.ofNat x.toNat) = [x] := by
  have hn : (Char.ofNat x.toNat).val.toNat = x.toNat := by
    have hv : Nat.isValidChar x.toNat := Or.inl (by omega)
    rw [Char.ofNat, dif_pos hv]
    simp only [Char.ofNatAux]
    exact UInt32.toNat_ofNatLT ..
  unfold String.utf8EncodeChar
  dsimp only
  rw [hn, if_pos (by omega)]
  congr 1
  exact UInt8.ofNat_toNat

/-- Decoding is Lean's decoding. -/
theorem utf8Decode_eq (b : Bytes) : utf8Decode b = (ByteArray.mk b.toArray).utf8Decode?.map Array.toList := by
  unfold utf8Decode
  split
  · rename_i h
    have hb : utf8 (b.map (fun x => Char.ofNat x.toNat)) = b := by
      unfold utf8
      rw [List.flatMap_map]
      induction b with
      | nil => rfl
      | cons x b ih =>
        rw [List.all_cons, Bool.and_eq_true] at h
        rw [List.flatMap_cons, utf8Encode_ascii (by simpa using h.1), ih h.2]
        rfl
    conv_rhs => rw [← hb, utf8_eq, List.utf8Decode?_utf8Encode]
    simp
  · rfl

theorem utf8Decode_utf8 (s : Str) : utf8Decode (utf8 s) = some s := by
  rw [utf8Decode_eq, utf8_eq, List.utf8Decode?_utf8Encode]
  simp

theorem utf8_inj {s t : Str} (h : utf8 s = utf8 t) : s = t := by
  have := utf8Decode_utf8 s
  rw [h, utf8Decode_utf8] at this
  exact (Option.some.inj this).symm

theorem utf8_cons (c : Char) (s : Str) : utf8 (c :: s) = String.utf8EncodeChar c ++ utf8 s := by
  unfold utf8; rw [List.flatMap_cons]

theorem hexVal_lower : ∀ n, n < 16 → hexVal (hexDigitLower n) = some n := by decide
theorem hexVal_upper : ∀ n, n < 16 → hexVal (hexDigitUpper n) = some n := by decide

theorem unquote_pct (d e : Char) {h l : Nat} (hd : hexVal d = some h) (he : hexVal e = some l) (s : Str) :
    unquoteToBytes ('%' :: d :: e :: s) = UInt8.ofNat (16 * h + l) :: unquoteToBytes s := by
  rw [unquoteToBytes]
  simp [hd, he]

theorem byte_of_nibbles (b : UInt8) : UInt8.ofNat (16 * (b.toNat / 16) + b.toNat % 16) = b := by
  rw [Nat.div_add_mod]; simp

theorem unquote_pctLower (b : UInt8) (s : Str) :
    unquoteToBytes (Layout.pctLower b ++ s) = b :: unquoteToBytes s := by
  have hb : b.toNat < 256 := b.toNat_lt
  have h1 := hexVal_lower (b.toNat / 16) (by omega)
  have h2 := hexVal_lower (b.toNat % 16) (by omega)
  show unquoteToBytes ('%' :: _ :: _ :: s) = _
  rw [unquote_pct _ _ h1 h2, byte_of_nibbles]

theorem unquote_pctUpper (b : UInt8) (s : Str) :
    unquoteToBytes (pctUpper b ++ s) = b :: unquoteToBytes s := by
  have hb : b.toNat < 256 := b.toNat_lt
  have h1 := hexVal_upper (b.toNat / 16) (by omega)
  have h2 := hexVal_upper (b.toNat % 16) (by omega)
  show unquoteToBytes ('%' :: _ :: _ :: s) = _
  rw [unquote_pct _ _ h1 h2, byte_of_nibbles]

theorem unquote_pctsLower (bs : Bytes) (s : Str) :
    unquoteToBytes (bs.flatMap Layout.pctLower ++ s) = bs ++ unquoteToBytes s := by
  induction bs with
  | nil => rfl
  | cons b bs ih => rw [List.flatMap_cons, List.append_assoc, unquote_pctLower, ih]; rfl

theorem unquote_pctsUpper (bs : Bytes) (s : Str) :
    unquoteToBytes (bs.flatMap pctUpper ++ s) = bs ++ unquoteToBytes s := by
  induction bs with
  | nil => rfl
  | cons b bs ih => rw [List.flatMap_cons, List.append_assoc, unquote_pctUpper, ih]; rfl

theorem unquote_char {c : Char} (hc : c ≠ '%') (s : Str) :
    unquoteToBytes (c :: s) = String.utf8EncodeChar c ++ unquoteToBytes s := by
  match s with
  | [] => simp [unquoteToBytes]
  | [d] => simp [unquoteToBytes]
  | d :: e :: s => rw [unquoteToBytes]; simp [hc]

/-- A string made by keeping characters other than `%` and percent-encoding the rest decodes to
the UTF-8 bytes of the original. -/
theorem unquote_encoded (keep : Char → Bool) (pct : UInt8 → Str)
    (hpct : ∀ (bs : Bytes) (s : Str), unquoteToBytes (bs.flatMap pct ++ s) = bs ++ unquoteToBytes s)
    (hk : keep '%' = false) (s : Str) :
    unquoteToBytes (s.flatMap (fun c => if keep c then [c] else (String.utf8EncodeChar c).flatMap pct)) =
      utf8 s := by
  induction s with
  | nil => rfl
  | cons c s ih =>
    rw [List.flatMap_cons, utf8_cons]
    split
    · rename_i h
      have hc : c ≠ '%' := by rintro rfl; simp [hk] at h
      rw [List.singleton_append, unquote_char hc, ih]
    · rw [hpct, ih]

end Ocfl
