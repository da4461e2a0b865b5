import Verif.Model.Lexer
/-!
# Positions in messages about syntax errors

The objects of reserved words are made once (`/repo/pynare/parsing/base.py:110-130`,
`/repo/pynare/parsing/dynare.py:127-266`), and reading a text writes the position into them.
-/

namespace Pynare

variable {V : Type}

/-- The reserved words: keys of `dynare_reserved_kw` and of `reserved_funcs`, `/repo/pynare/parsing/lexer.py:147-150`. -/
inductive ResWord where
  | kw (s : String)
  | func (f : Fn)
  deriving DecidableEq

/-- The reserved word whose object a token is, if it is one, `/repo/pynare/parsing/lexer.py:147-150`. -/
def Tok.word : Tok V → Option ResWord
  | .kw s => some (.kw s)
  | .func f => some (.func f)
  | _ => none

/-- The positions in the objects of reserved words after the tokens have been made, `assign_loc`,
`/repo/pynare/parsing/lexer.py:151`, `/repo/pynare/parsing/base.py:98-100`. -/
def runStore : List (Tok V × Pos) → (ResWord → Option Pos) → ResWord → Option Pos
  | [], st => st
  | (t, p) :: ts, st => runStore ts (match t.word with
    | some w => fun w' => if w' = w then some p else st w'
    | none => st)

/-- The position found in a token of the stream after the whole text has been read, `token.line_number`, `token.line_pos`;
`/repo/pynare/errors/__init__.py:24-29`.  (The parser reads tokens after `tokenize` has returned,
`/repo/pynare/parsing/parser.py:39-43`.) -/
def seenPos (ts : List (Tok V × Pos)) (tp : Tok V × Pos) : Pos :=
  match tp.1.word with
  | none => tp.2
  | some w => (runStore ts (fun _ => none) w).getD tp.2

/-- `PynareSyntaxError.__init__`, `/repo/pynare/errors/__init__.py:24-29`, for the token at a place of the stream that
`BaseParser.error` is called with, `/repo/pynare/parsing/parser.py:45-46`; `shown` is `repr` of its value. -/
def syntaxText (shown : Tok V → List Char) (ts : List (Tok V × Pos)) (i : Nat) : Option (List Char) :=
  ts[i]?.map fun tp => "syntax error: ".toList ++ shown tp.1 ++ " in line ".toList ++ Nat.toDigits 10 (seenPos ts tp).line ++
    " in column ".toList ++ Nat.toDigits 10 (seenPos ts tp).col

end Pynare
