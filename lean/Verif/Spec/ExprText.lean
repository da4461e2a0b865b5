import Verif.Spec.Lexer
/-! # Specification vocabulary for the printed equations -/

namespace Pynare

/-- `Trims isSpace t u`: `u` is `t` without the white space at its two ends. -/
def Trims (isSpace : Char → Bool) (t u : List Char) : Prop :=
  ∃ a b, t = a ++ u ++ b ∧ (∀ c ∈ a, isSpace c = true) ∧ (∀ c ∈ b, isSpace c = true) ∧
    (∀ c, u.head? = some c → isSpace c = false) ∧ (∀ c, u.getLast? = some c → isSpace c = false)

/-- `ShownAs isSpace n s line`: `line` shows the equation written `s`, indented by four blanks, its left side filled up
with blanks to `n` characters. -/
def ShownAs (isSpace : Char → Bool) (n : Nat) (s line : List Char) : Prop :=
  ∃ a b l r, s = a ++ '=' :: b ∧ '=' ∉ a ∧ '=' ∉ b ∧ Trims isSpace a l ∧ Trims isSpace b r ∧ l.length ≤ n ∧
    line = "    ".toList ++ l ++ List.replicate (n - l.length) ' ' ++ " = ".toList ++ r

end Pynare
