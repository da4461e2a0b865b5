import Verif.Model.Lexer
/-! # Specification vocabulary for the lexer -/

namespace Pynare

variable {V : Type}

/-- Facts about Python's character classes that the theorems use.  They hold for Python's
Unicode tables; `asciiCfg` below is a concrete instance. -/
structure CharOk (cfg : LexCfg V) : Prop where
  space_nl : cfg.isSpace '\n' = true
  space_blank : cfg.isSpace ' ' = true
  alpha_alnum : ∀ c, cfg.isAlpha c = true → cfg.isAlnum c = true
  digit_alnum : ∀ c, cfg.isDigit c = true → cfg.isAlnum c = true
  digit_not_alpha : ∀ c, cfg.isDigit c = true → cfg.isAlpha c = false
  alnum_not_space : ∀ c, cfg.isAlnum c = true → cfg.isSpace c = false
  punct_not_alnum : ∀ c ∈ ['_', '\'', '"', ',', '.', ';', ':', '#', '&', '|', '@', '!', '~', '%',
    '<', '>', '=', '\\', '^', '+', '-', '*', '/', '(', ')', '[', ']', '{', '}', '\n'],
    cfg.isAlnum c = false
  punct_not_space : ∀ c ∈ ['_', '\'', '"', ',', '.', ';', ':', '#', '&', '|', '@', '!', '~', '%',
    '<', '>', '=', '\\', '^', '+', '-', '*', '/', '(', ')', '[', ']', '{', '}'],
    cfg.isSpace c = false

/-- Spelling of punctuation; `pyExp` selects the spelling of the exponent sign.  The period
has no spelling of its own: the lexer reads it as the start of a number. -/
def Sym.text (pyExp : Bool) : Sym → Option (List Char)
  | .comma => some [','] | .period => none | .semi => some [';'] | .colon => some [':']
  | .pound => some ['#'] | .ampersand => some ['&'] | .pipe => some ['|'] | .atsign => some ['@']
  | .exclamation => some ['!'] | .tilde => some ['~'] | .percent => some ['%']
  | .backslash => some ['\\'] | .lt => some ['<'] | .ltoe => some ['<', '='] | .gt => some ['>']
  | .gtoe => some ['>', '='] | .equality => some ['=', '=']
  | .power => some (if pyExp then ['*', '*'] else ['^'])
  | .plus => some ['+'] | .minus => some ['-'] | .mul => some ['*'] | .div => some ['/']
  | .lpare => some ['('] | .rpare => some [')'] | .lbracket => some ['['] | .rbracket => some [']']
  | .lbrace => some ['{'] | .rbrace => some ['}'] | .equals => some ['=']

/-- Spelling of the functions. -/
def Fn.text : Fn → String
  | .exp => "exp" | .log => "log" | .ln => "ln" | .log10 => "log10" | .sqrt => "sqrt" | .abs => "abs" | .sign => "sign"
  | .sin => "sin" | .cos => "cos" | .tan => "tan" | .asin => "asin" | .acos => "acos" | .atan => "atan" | .max => "max"
  | .min => "min" | .normcdf => "normcdf" | .normpdf => "normpdf" | .erf => "erf"

/-- `Spells cfg t w`: the characters `w` are a way to write the token `t`. -/
inductive Spells (cfg : LexCfg V) : Tok V → List Char → Prop
  | id {c cs} : cfg.begChar c = true → (∀ x ∈ cs, cfg.varChar x = true) →
      String.ofList (c :: cs) ∉ cfg.keywords → (∀ f : Fn, String.ofList (c :: cs) ≠ f.text) →
      Spells cfg (.id (String.ofList (c :: cs))) (c :: cs)
  | kw {c cs} : cfg.begChar c = true → (∀ x ∈ cs, cfg.varChar x = true) →
      String.ofList (c :: cs) ∈ cfg.keywords →
      Spells cfg (.kw (String.ofList (c :: cs))) (c :: cs)
  | func {c cs f} : cfg.begChar c = true → (∀ x ∈ cs, cfg.varChar x = true) →
      String.ofList (c :: cs) ∉ cfg.keywords → String.ofList (c :: cs) = f.text →
      Spells cfg (.func f) (c :: cs)
  | num {c cs v} : (∀ x ∈ c :: cs, cfg.numChar x = true) → cfg.toNum (c :: cs) = some v →
      Spells cfg (.num v) (c :: cs)
  | str {q cs} : q = '\'' ∨ q = '"' → q ∉ cs → Spells cfg (.str (String.ofList cs)) (q :: cs ++ [q])
  | sym {s w} : s.text cfg.pyExp = some w → ¬ (cfg.dynare = true ∧ s = .percent) →
      Spells cfg (.sym s) w

/-- What may follow a token without being glued to it: a name is not followed by a name
character, a number not by a digit or period, `<`, `>`, `=` not by `=`, `*` not by `*` when
that spells the exponent, `/` not by the rest of a comment opener. -/
def Follows (cfg : LexCfg V) (t : Tok V) (rest : List Char) : Prop :=
  ∀ c, rest.head? = some c →
    match t with
    | .id _ | .kw _ | .func _ => cfg.varChar c = false
    | .num _ => cfg.numChar c = false
    | .sym .lt | .sym .gt | .sym .equals => c ≠ '='
    | .sym .mul => cfg.pyExp = true → c ≠ '*'
    | .sym .div => cfg.dynare = true → c ≠ '/' ∧ c ≠ '*'
    | _ => True

/-- A line comment together with the white space that follows it. -/
inductive LineComment (cfg : LexCfg V) : List Char → Prop
  | mk {opener body ws} : opener = ['%'] ∨ opener = ['/', '/'] → '\n' ∉ body →
      (∀ c ∈ ws, cfg.isSpace c = true) → LineComment cfg (opener ++ body ++ '\n' :: ws)

/-- Contents of a block comment that the lexer handles: no star anywhere, and a slash only as
the very first character. -/
def BlockBody (body : List Char) : Prop := '*' ∉ body ∧ '/' ∉ body.tail

/-- A block comment together with the white space that follows it. -/
inductive BlockComment (cfg : LexCfg V) : List Char → Prop
  | mk {body ws} : BlockBody body → (∀ c ∈ ws, cfg.isSpace c = true) →
      BlockComment cfg (['/', '*'] ++ body ++ ['*', '/'] ++ ws)

/-- Layout between tokens: white space, then line comments, then block comments (the last two
only in model files). -/
inductive Layout (cfg : LexCfg V) : List Char → Prop
  | mk {ws : List Char} {ls bs : List (List Char)} : (∀ c ∈ ws, cfg.isSpace c = true) →
      (∀ l ∈ ls, cfg.dynare = true ∧ LineComment cfg l) →
      (∀ b ∈ bs, cfg.dynare = true ∧ BlockComment cfg b) →
      Layout cfg (ws ++ ls.flatten ++ bs.flatten)

/-- `Written cfg toks s R`: `s`, when followed by `R`, is a way to write `toks`, each token
preceded by (possibly empty) layout and not glued to what follows. -/
inductive Written (cfg : LexCfg V) : List (Tok V) → List Char → List Char → Prop
  | nil {R} : Written cfg [] [] R
  | cons {t ts l w s R} : Layout cfg l → Spells cfg t w → Follows cfg t (s ++ R) →
      Written cfg ts s R → Written cfg (t :: ts) (l ++ w ++ s) R

/-- Line and column after reading `w` from the start of a text: one plus the number of newlines,
and the number of characters since the last newline. -/
def posAfter (w : List Char) : Pos :=
  ⟨1 + w.count '\n', (w.reverse.takeWhile (fun c => c ≠ '\n')).length⟩

/-- Replace every `^` by `**`. -/
def pyText : List Char → List Char
  | [] => []
  | c :: cs => if c = '^' then '*' :: '*' :: pyText cs else c :: pyText cs

/-- A text in which the two spellings cannot be confused: no quoted strings, and no star directly
followed by a star or an exponent sign. -/
def PlainStars : List Char → Prop
  | [] => True
  | c :: cs => c ≠ '\'' ∧ c ≠ '"' ∧ (c = '*' → cs.head? ≠ some '*' ∧ cs.head? ≠ some '^') ∧
      PlainStars cs

/-- Every comment opener `/*` of a model file belongs to a block comment whose contents the lexer
handles. -/
def BlocksClosed (cfg : LexCfg V) (text : List Char) : Prop :=
  cfg.dynare = true → ∀ pre r, text = pre ++ '/' :: '*' :: r →
    ∃ body R, r = body ++ '*' :: '/' :: R ∧ BlockBody body

/-- Meaning of a Python `while` loop: `WhileTo cond body s t` – started in `s`, the loop exits in
`t`. -/
inductive WhileTo {σ : Type} (cond : σ → Prop) (body : σ → σ) : σ → σ → Prop
  | stop {s} : ¬ cond s → WhileTo cond body s s
  | step {s t} : cond s → WhileTo cond body (body s) t → WhileTo cond body s t

/-- ASCII instance of the character classes; numbers are written in decimal digits. -/
def asciiCfg (dynare pyExp : Bool) : LexCfg Nat where
  isSpace c := c == ' ' || c == '\n' || c == '\t' || c == '\r'
  isAlpha c := decide ('a' ≤ c ∧ c ≤ 'z') || decide ('A' ≤ c ∧ c ≤ 'Z')
  isAlnum c := decide ('a' ≤ c ∧ c ≤ 'z') || decide ('A' ≤ c ∧ c ≤ 'Z') ||
    decide ('0' ≤ c ∧ c ≤ '9')
  isDigit c := decide ('0' ≤ c ∧ c ≤ '9')
  toNum cs := if cs.all (fun c => decide ('0' ≤ c ∧ c ≤ '9')) then
    some (cs.foldl (fun n c => 10 * n + (c.toNat - '0'.toNat)) 0) else none
  dynare := dynare
  pyExp := pyExp
  keywords := if dynare then ["var", "varexo", "parameters", "model", "end"] else []

end Pynare
