import Verif.Model.Report
/-!
# Specification vocabulary for printed summaries

How a reader takes a printed table apart: into lines, lines into words, and words into numbers.
-/

namespace Pynare

/-- The lines of a text. -/
def linesOf (t : Txt) : List Txt := t.splitOn '\n'

/-- The words of a line, which are separated by blanks. -/
def lineWords (t : Txt) : List Txt := (t.splitOn ' ').filter fun w => w ≠ []

/-- A name that is one word: not empty, without blanks and line breaks. -/
def Plain (t : Txt) : Prop := t ≠ [] ∧ ' ' ∉ t ∧ '\n' ∉ t

/-- Reads digits as an integer. -/
def readNat (t : Txt) : Option ℕ :=
  if t ≠ [] ∧ t.all Char.isDigit then some (t.foldl (fun n c => 10 * n + (c.toNat - 48)) 0) else none

section
variable (V : Type) [Field V]

/-- Reads digits, perhaps with a decimal point. -/
def readUnsigned (t : Txt) : Option V :=
  match t.splitOn '.' with
  | [a] => (readNat a).map fun n => (n : V)
  | [a, b] => match readNat a, readNat b with
    | some m, some n => some ((m : V) + (n : V) / 10 ^ b.length)
    | _, _ => none
  | _ => none

/-- Reads a decimal number, perhaps with a minus sign. -/
def readNumber : Txt → Option V
  | '-' :: t => (readUnsigned V t).map fun x => -x
  | t => readUnsigned V t

end

section
variable {V : Type} [Field V] [LinearOrder V]

/-- The word can be read as a number that differs from `x` by at most half a unit of the `d`-th decimal; if there is no
number it is `nan`. -/
def Shows (d : ℕ) (t : Txt) : Option V → Prop
  | some x => ∃ y, readNumber V t = some y ∧ |y - x| ≤ 1 / 2 / 10 ^ d
  | none => t = ['n', 'a', 'n']

/-- The same with infinity. -/
def ShowsX (d : ℕ) (t : Txt) : XNum V → Prop
  | .fin x => Shows d t (some x)
  | .inf false => t = ['i', 'n', 'f']
  | .inf true => t = ['-', 'i', 'n', 'f']
  | .nan => t = ['n', 'a', 'n']

/-- The line consists of the name and the numbers. -/
def RowShows (d : ℕ) (line : Txt) (r : Txt × List (Option V)) : Prop :=
  ∃ cells, lineWords line = r.1 :: cells ∧ List.Forall₂ (Shows d) cells r.2

/-- The text has a title, a line of headings, and then a line for every row that consists of its name and its numbers. -/
def TableShows (d : ℕ) (title : Txt) (headings : List Txt) (rows : List (Txt × List (Option V))) (t : Txt) : Prop :=
  ∃ head lines, linesOf t = title :: head :: lines ∧ lineWords head = headings.flatMap lineWords ∧
    List.Forall₂ (RowShows d) lines rows

end

/-- The part of a line that has `w` characters and stands in column `j` of a table, whose columns begin after `off`
characters and are separated by one blank. -/
def columnOf (off w j : ℕ) (line : Txt) : Txt := (line.drop (off + j * (w + 1))).take w

/-- A text without the blanks in front. -/
def trimmed (t : Txt) : Txt := t.dropWhile (· == ' ')

/-- The line consists of the cells, one in each column, to the right. -/
def InColumns (off w : ℕ) (line : Txt) (cells : List Txt) : Prop :=
  line.length + 1 = off + cells.length * (w + 1) ∧
  ∀ j c, cells[j]? = some c → (columnOf off w j line).length = w ∧ trimmed (columnOf off w j line) = c

/-- The numbers in the lines below the headings stand in columns below them. -/
def AlignedTable (headings : List Txt) (t : Txt) : Prop :=
  ∃ title head lines off w, linesOf t = title :: head :: lines ∧ InColumns off w head headings ∧
    ∀ line ∈ lines, InColumns off w line (lineWords line).tail

/-- The line gives the value of a parameter. -/
def ParamShows {V : Type} [Field V] [LinearOrder V] (d : ℕ) (line : Txt) (p : String × V) : Prop :=
  ∃ cell, lineWords line = [p.1.toList, ['='], cell] ∧ Shows d cell (some p.2)

/-- The line gives the three numbers of an eigenvalue. -/
def EigenShows {V : Type} [Field V] [LinearOrder V] (d : ℕ) (line : Txt) (e : Eigen V) : Prop :=
  ∃ a b c, lineWords line = [a, b, c] ∧ ShowsX d a e.re ∧ ShowsX d b e.im ∧ ShowsX d c e.mod

/-- The line gives a number of variables of a kind. -/
def CountShows (line : Txt) (p : Txt × ℕ) : Prop :=
  ∃ cell, lineWords line = ["number".toList, "of".toList] ++ lineWords (p.1 ++ [':']) ++ [cell] ∧ readNat cell = some p.2

section
variable {V : Type} [Field V] [LinearOrder V] [FloorRing V]

/-- What a feature of the summary of a model consists of. -/
def SectionOf (s : ModelSummary V) (f : String) (t : Txt) : Prop :=
  (f = "variables" ∧ t = variablesText s.view s.pad) ∨ (f = "eigen" ∧ eigenText s.view s.sig s.pad = .ok t) ∨
  (f = "stoch" ∧ stochText s.view s.sig s.pad = .ok t) ∨ (f = "params" ∧ (paramsText s.view s.sig s.pad s.params).2 = .ok t)

/-- Whether a feature is switched on. -/
def switchedOn (s : ModelSummary V) (f : String) : Bool :=
  (f = "variables" && s.vars) || (f = "eigen" && s.eigen) || (f = "stoch" && s.stoch) || (f = "params" && s.params.truth)

/-- What a feature of the summary of statistics consists of. -/
def StatSectionOf (s : StatSummary V) (f : String) (t : Txt) : Prop :=
  (f = "moments" ∧ momentsText s.stats s.sig s.pad s.endog = .ok t) ∨ (f = "corr" ∧ corrText s.stats s.sig s.pad s.endog = .ok t) ∨
  (f = "autocorr" ∧ autocorrText s.stats s.sig s.pad s.autocorr s.endog = .ok t) ∨
  (f = "decomp" ∧ decompText s.stats s.sig s.pad s.endog s.stoch = .ok t)

/-- Whether it is switched on. -/
def statSwitchedOn (s : StatSummary V) (f : String) : Bool :=
  (f = "moments" && s.moments) || (f = "corr" && s.corr) || (f = "autocorr" && s.autocorr ≠ 0) || (f = "decomp" && s.decomp)

end

end Pynare
