import Verif.Spec.Ascii
/-!
# Specification: which fields the RFCs recommend to sign, and not to sign
-/

namespace Dkim.Spec.Rfc

/-- RFC 6376, 5.4.1: "examples of header fields to sign". -/
def recommended6376 : List Bytes :=
  [b!"from", b!"reply-to", b!"subject", b!"date", b!"to", b!"cc", b!"resent-date", b!"resent-from", b!"resent-to", b!"resent-cc",
   b!"in-reply-to", b!"references", b!"list-id", b!"list-help", b!"list-unsubscribe", b!"list-subscribe", b!"list-post", b!"list-owner",
   b!"list-archive"]

/-- RFC 4871, 5.5: "the following header fields SHOULD be included in the signature, if they are present". -/
def recommended4871 : List Bytes :=
  [b!"from", b!"sender", b!"reply-to", b!"subject", b!"date", b!"message-id", b!"to", b!"cc", b!"mime-version", b!"content-type",
   b!"content-transfer-encoding", b!"content-id", b!"content-description", b!"resent-date", b!"resent-from", b!"resent-sender", b!"resent-to",
   b!"resent-cc", b!"resent-message-id", b!"in-reply-to", b!"references", b!"list-id", b!"list-help", b!"list-unsubscribe", b!"list-subscribe",
   b!"list-post", b!"list-owner", b!"list-archive"]

/-- RFC 8058, 4: List-Unsubscribe-Post must be covered. RFC 9477, 3.1.4: CFBL-Address and CFBL-Feedback-ID must be covered. -/
def required : List Bytes := [b!"list-unsubscribe", b!"list-unsubscribe-post", b!"cfbl-address", b!"cfbl-feedback-id"]

/-- All of them, in lower case. -/
def recommended : List Bytes := recommended6376 ++ recommended4871 ++ required

/-- RFC 6376, 5.4.1: fields that should not be signed (trace and free-form fields); and the fields signatures and their results are in. -/
def discouraged : List Bytes :=
  [b!"return-path", b!"received", b!"comments", b!"keywords", b!"dkim-signature", b!"authentication-results", b!"arc-seal",
   b!"arc-message-signature", b!"arc-authentication-results", b!"bcc", b!"resent-bcc"]

end Dkim.Spec.Rfc
