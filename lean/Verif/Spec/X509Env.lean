import Verif.Model.X509Env

/-!
# Specification: what a script is told about the certificate of the other side (C125)
-/

namespace Verif.X509Env

/-- The characters that may be in a value: none of them means anything to a shell, but for the blanks. -/
def safe : Str := bytes "abcdefghijklmnopqrstuvwxyzABCDEFGHIJKLMNOPQRSTUVWXYZ0123456789_-.:@ \t"

/-- The values of a name's fields of one kind, in order, without those that are empty. -/
def valuesOf (xs : List Entry) (sn : Str) : List Str :=
  xs.filterMap (fun x => if x.sn = some sn ∧ x.val ≠ some [] then x.val else none)

/-- Each short name that OpenSSL gives has only such characters. -/
def Plain (xs : List Entry) : Prop := ∀ x ∈ xs, ∀ sn, x.sn = some sn → ∀ c ∈ sn, c ∈ safe

end Verif.X509Env
