import Verif.Model.Basic

/-!
# Model: what a script is told about the certificate of the other side

`src/ssl.c:210-360`: the fields of the certificate are put into the environment, for `ssl_extra_checks_script` and the
other scripts. What OpenSSL gives for a field is an input.
-/

namespace Verif.X509Env

/-- The characters that `sanitise` leaves, `src/ssl.c:215-221`. Simplified: `isalnum` and `isblank` as in the C locale;
burp does not call `setlocale`. -/
def keeps (c : Byte) : Bool :=
  (48 ≤ c && c ≤ 57) || (65 ≤ c && c ≤ 90) || (97 ≤ c && c ≤ 122)
  || c == 32 || c == 9
  || c == 95
  || c == 45
  || c == 46
  || c == 58
  || c == 64

/-- `sanitise`, `src/ssl.c:210-224`. -/
def sanitise (s : Str) : Str := s.map (fun c => if keeps c then c else 95)

/-- The environment, which `setenv` changes, `src/ssl.c:257`, `:279`, `:298`. -/
abbrev Env := Str → Option Str

/-- `setenv` with a last argument of 1. A name that is empty or has a `=` is refused. `src/ssl.c:257`. -/
def setenv (e : Env) (n v : Str) : Env :=
  if n = [] ∨ 61 ∈ n then e else fun m => if m = n then some v else e m

/-- A field of a name in a certificate: its short name, if OpenSSL knows it, and its value as UTF-8, which has a length,
so that there can be a NUL in it. `src/ssl.c:242-249`. -/
structure Entry where
  sn : Option Str
  val : Option Str
  deriving DecidableEq, Repr

/-- What is read of a buffer when it is used as a C string, `src/ssl.c:213`, `:257`. -/
def upToNul (s : Str) : Str := s.takeWhile (· ≠ 0)

/-- The name of the variable, `src/ssl.c:250-255`. -/
def varName (type sn : Str) : Str :=
  sanitise ((bytes "X509_" ++ type ++ bytes "_" ++ sn).take (64 + sn.length - 1))

/-- One turn of the loop in `setenv_x509`, `src/ssl.c:242-259`. -/
def setEntry (type : Str) (e : Env) (x : Entry) : Env :=
  match x.sn, x.val with
  | some sn, some v => if v = [] then e else setenv e (varName type sn) (sanitise (upToNul v))
  | _, _ => e

/-- `setenv_x509`, `src/ssl.c:227-262`. Memory does not run out. -/
def setNames (type : Str) (xs : List Entry) (e : Env) : Env := xs.foldl (setEntry type) e

/-- `BIO_gets` into a buffer of 256 bytes, `src/ssl.c:276`, `:295`: up to the first newline, which is kept. -/
def gets (s : Str) : Str :=
  ((s.takeWhile (· ≠ newline)) ++ (s.dropWhile (· ≠ newline)).take 1).take 254

/-- `setenv_x509_date` and `setenv_x509_serialnumber`, `src/ssl.c:264-300`, given what OpenSSL prints. -/
def setText (n : Str) (s : Str) (e : Env) : Env := setenv e n (sanitise (upToNul (gets s)))

/-- What is used of a certificate, `src/ssl.c:347-356`. -/
structure Cert where
  subject : List Entry
  issuer : List Entry
  notBefore : Str
  notAfter : Str
  serial : Str
  deriving DecidableEq, Repr

/-- The environment after `ssl_check_cert` has accepted a certificate, `src/ssl.c:347-357`. -/
def export_ (c : Cert) (e : Env) : Env :=
  setText (bytes "X509_PEER_SERIALNUMBER") c.serial
    (setText (bytes "X509_PEER_NOT_AFTER") c.notAfter
      (setText (bytes "X509_PEER_NOT_BEFORE") c.notBefore
        (setNames (bytes "ISSUER") c.issuer
          (setNames (bytes "PEER") c.subject e))))

/-- The first field that is a common name, which is what `X509_NAME_get_text_by_NID` takes, `src/ssl.c:331`. -/
def firstCn : List Entry → Option Str
  | [] => none
  | x :: xs => if x.sn = some (bytes "CN") then some (x.val.getD []) else firstCn xs

/-- A letter in lower case, for `strcasecmp`, `src/ssl.c:333`. -/
def low (c : Byte) : Byte := if 65 ≤ c ∧ c ≤ 90 then c + 32 else c

/-- The comparison in `ssl_check_cert`, `src/ssl.c:331-339`: the text in a buffer of 256 bytes. If there is no common
name, what the buffer had before, the description of the cipher, is compared. Simplified: the value is as in UTF-8. -/
def cnMatches (cipher : Str) (c : Cert) (peerCn : Str) : Bool :=
  let text := match firstCn c.subject with
    | some v => upToNul (v.take 255)
    | none => cipher
  text.map low == peerCn.map low

end Verif.X509Env
