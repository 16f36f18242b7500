import Verif.Model.Base64
/-!
# External functions (OpenSSL, libsodium)

Every theorem quantifies over all `Env`; the laws a theorem needs are explicit hypotheses.
-/

namespace Dkim

structure Env where
  /-- OpenSSL `RSA` public key objects -/
  RsaPub : Type
  /-- OpenSSL `RSA` private key objects -/
  RsaPriv : Type
  /-- `EVP_DigestInit/Update/Final`: digest of the concatenation of all updates
  (src/Validatory.cpp:136-158,194-256, src/Signatory.cpp:61-84,91-130,196-200) -/
  hash : DigestAlg → Bytes → Bytes
  /-- `Base64_Decode`, src/Base64.cpp:28-46 -/
  b64dec : Bytes → Bytes
  /-- `d2i_PUBKEY`, src/PublicKey.cpp:122: `none` = invalid DER; `some none` = not an RSA key -/
  d2iPubkey : Bytes → Option (Option RsaPub)
  /-- `RSA_verify(nid, md, sig, key) == 1`, src/Validatory.cpp:263 -/
  rsaVerify : RsaPub → DigestAlg → Bytes → Bytes → Bool
  /-- `crypto_sign_verify_detached(sig, md, pk) == 0`, src/Validatory.cpp:274: key (32 bytes),
  message, signature (64 bytes) -/
  edVerify : Bytes → Bytes → Bytes → Bool
  /-- `RSA_sign`, src/Signatory.cpp:220: `none` = failure -/
  rsaSign : RsaPriv → DigestAlg → Bytes → Option Bytes
  /-- `crypto_sign_detached`, src/Signatory.cpp:240: key (64 bytes), message -/
  edSign : Bytes → Bytes → Option Bytes
  /-- `PEM_read_bio_PrivateKey`, src/SignatoryOptions.cpp:103: `none` = unreadable;
  `some none` = not RSA -/
  pemPriv : Bytes → Option (Option RsaPriv)
  /-- `d2i_RSAPrivateKey`, src/SignatoryOptions.cpp:127 -/
  derPriv : Bytes → Option RsaPriv
  /-- `crypto_sign_seed_keypair`, src/SignatoryOptions.cpp:140 -/
  edSeed : Bytes → Bytes

/-- The law assumed of the base64 decoder: it inverts the encoder. src/Base64.cpp:28-69. -/
def Env.B64Law (E : Env) : Prop := ∀ x, E.b64dec (b64Encode x) = x

end Dkim
