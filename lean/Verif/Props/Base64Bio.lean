import Verif.Model.Base64Bio
import Verif.Props.Base64
/-!
# Property C18: the functions around OpenSSL's base64 BIO
-/

namespace Dkim
open Spec

/-- What is assumed of OpenSSL: what arrives is the base64 of RFC 4648, and reading such a text gives the bytes back. -/
structure Spec.BioLaw (bio : Bio) : Prop where
  encodes : ∀ x, bio.encode x = Spec.base64 x
  decodes : ∀ x, bio.decode (Spec.base64 x) = x

theorem readAll_ok (chunk : Nat → Nat) (buf : Nat) (hbuf : 0 < buf) : ∀ (n k : Nat) (s out : Bytes), s.length < n →
    readAll chunk buf n k s out = .ok (out ++ s) := by
  intro n
  induction n with
  | zero => intro k s out h; omega
  | succ n ih =>
    intro k s out h
    rw [readAll]
    split
    · have : s.length = 0 := by omega
      rw [List.length_eq_zero_iff] at this
      subst this; simp
    · rw [ih _ _ _ (by rw [List.length_drop]; omega), List.append_assoc, List.take_append_drop]

theorem readChomp_ok (chunk : Nat → Nat) (buf : Nat) (hbuf : 0 < buf) : ∀ (n k : Nat) (s out : Bytes), s.length < n → LF ∉ s →
    readChomp chunk buf n k s out = .ok (out ++ s) := by
  intro n
  induction n with
  | zero => intro k s out h; omega
  | succ n ih =>
    intro k s out h hl
    rw [readChomp]
    dsimp only
    split
    · have : s.length = 0 := by omega
      rw [List.length_eq_zero_iff] at this
      subst this; simp
    · rw [if_neg, ih _ _ _ (by rw [List.length_drop]; omega) (fun h => hl (List.mem_of_mem_drop h)), List.append_assoc,
        List.take_append_drop]
      intro h
      exact hl (List.mem_of_mem_take (List.mem_of_getLast? h))

theorem bioWrite_small (d : Bytes) (h : d.length < 2 ^ 31) : bioWrite d = d := by
  unfold bioWrite toInt32
  rw [Nat.mod_eq_of_lt (by omega), if_pos h]
  simp

theorem base64_no_lf (x : Bytes) : LF ∉ Spec.base64 x := by
  rw [← C18_rfc4648]
  intro h
  have := (b64_not_space h).1
  revert this; decide

/-- C18: for every byte string below 2 GiB, however OpenSSL cuts what it delivers, `Base64_Encode` returns exactly the base64 of RFC 4648. -/
theorem C18_encode (bio : Bio) (hb : BioLaw bio) (x : Bytes) (h : x.length < 2 ^ 31) : base64Encode bio x = .ok (Spec.base64 x) := by
  unfold base64Encode
  dsimp only
  rw [bioWrite_small x h, hb.encodes]
  exact readChomp_ok _ _ (by omega) _ _ _ _ (by omega) (base64_no_lf x)

/-- C18: `Base64_Decode` returns all that OpenSSL's decoder makes of the text, for every text below 2 GiB. -/
theorem C18_decode_all (bio : Bio) (s : Bytes) (h : s.length < 2 ^ 31) : base64Decode bio s = .ok (bio.decode s) := by
  unfold base64Decode
  dsimp only
  rw [bioWrite_small s h]
  exact readAll_ok _ _ (by omega) _ _ _ _ (by omega)

/-- C18: decoding inverts encoding, if the encoding is below 2 GiB. -/
theorem C18_round_trip (bio : Bio) (hb : BioLaw bio) (x : Bytes) (h : 4 * ((x.length + 2) / 3) < 2 ^ 31) :
    ∃ t, base64Encode bio x = .ok t ∧ base64Decode bio t = .ok x := by
  refine ⟨Spec.base64 x, C18_encode bio hb x (by omega), ?_⟩
  rw [C18_decode_all _ _ (by rw [← C18_rfc4648, C18_length]; exact h), hb.decodes]

/-- C18, the limit: 4 GiB of data are encoded to nothing at all, since the size is passed as `int`. -/
theorem C18_oversize_witness (bio : Bio) (hb : BioLaw bio) (x : Bytes) (h : x.length = 2 ^ 32) : base64Encode bio x = .ok [] := by
  unfold base64Encode
  dsimp only
  have : bioWrite x = [] := by
    unfold bioWrite toInt32
    rw [h]
    simp
  rw [this, hb.encodes]
  exact readChomp_ok _ _ (by omega) _ _ _ _ (by omega) (base64_no_lf [])

/-- A BIO with these properties that delivers one, two, three ... bytes at a time. -/
theorem bioLaw_example : BioLaw ⟨Spec.base64, b64DecodeRef, fun k => k + 1⟩ ∧
    base64Encode ⟨Spec.base64, b64DecodeRef, fun k => k + 1⟩ b!"Man" = .ok b!"TWFu" := by
  refine ⟨⟨fun _ => rfl, fun x => ?_⟩, by decide +kernel⟩
  rw [← C18_rfc4648]; exact C18_law_satisfiable x

/-- The law the other theorems assume of the decoder (`Env.B64Law`) is the second of these. -/
theorem b64Law_of_bio (E : Env) (bio : Bio) (hb : BioLaw bio) (h : E.b64dec = bio.decode) : E.B64Law := by
  intro x
  rw [h, C18_rfc4648]; exact hb.decodes x

end Dkim
