import Verif.Spec.Parser
/-!
# The grammar of model files

The grammar in the docstrings of `/repo/pynare/parsing/parser.py:223-938`, as relations between tokens and
trees.  Expressions are those of `Derives`.
-/

namespace Pynare

variable {V : Type}

/-- Names of a declaration, separated by commas or nothing. -/
inductive NamesOf : List (Tok V) → List String → Prop
  | nil : NamesOf [] []
  | name {x us xs} : NamesOf us xs → NamesOf (.id x :: us) (x :: xs)
  | comma {x us xs} : NamesOf us xs → NamesOf (.sym .comma :: .id x :: us) (x :: xs)

/-- `name = expression ;` -/
inductive AssignOf (pc : PCfg V) : List (Tok V) → String × Expr V → Prop
  | mk {x us e} : Derives false pc us e → AssignOf pc (.id x :: .sym .equals :: us ++ [.sym .semi]) (x, e)

/-- Declarations and assignments before the model block, with the names declared and the values assigned. -/
inductive PreOf (pc : PCfg V) : List (Tok V) → List (String × String) → List (String × Expr V) → Prop
  | nil : PreOf pc [] [] []
  | decl {k us xs vs ds ps} : k ∈ varTypes → NamesOf us xs → PreOf pc vs ds ps →
      PreOf pc (.kw k :: us ++ .sym .semi :: vs) (xs.map (fun x => (x, k)) ++ ds) ps
  | assign {us a vs ds ps} : AssignOf pc us a → PreOf pc vs ds ps → PreOf pc (us ++ vs) ds (a :: ps)

/-- Items each preceded by a comma. -/
inductive CommaTail {α : Type} (P : List (Tok V) → α → Prop) : List (Tok V) → List α → Prop
  | nil : CommaTail P [] []
  | cons {us a vs as} : P us a → CommaTail P vs as → CommaTail P (.sym .comma :: us ++ vs) (a :: as)

/-- An option: a name alone, or with a string, a name, or an expression that does not start with a name. -/
inductive ArgOf (pc : PCfg V) : List (Tok V) → String × ArgVal V → Prop
  | bare {x} : ArgOf pc [.id x] (x, .none)
  | str {x s} : ArgOf pc [.id x, .sym .equals, .str s] (x, .str s)
  | id {x y} : ArgOf pc [.id x, .sym .equals, .id y] (x, .id y)
  | expr {x us e} : Derives false pc us e → (∀ y vs, us ≠ .id y :: vs) → ArgOf pc (.id x :: .sym .equals :: us) (x, .expr e)

/-- No options, or a list in parentheses. -/
inductive ArgsOf (pc : PCfg V) : List (Tok V) → List (String × ArgVal V) → Prop
  | none : ArgsOf pc [] []
  | some {us a vs as} : ArgOf pc us a → CommaTail (ArgOf pc) vs as →
      ArgsOf pc (.sym .lpare :: us ++ vs ++ [.sym .rpare]) (a :: as)

/-- A tag: a name alone or with a string. -/
inductive TagOf : List (Tok V) → String × Option String → Prop
  | bare {x} : TagOf [.id x] (x, none)
  | str {x s} : TagOf [.id x, .sym .equals, .str s] (x, some s)

/-- An equation; without right side that side is zero. -/
inductive EqOf (pc : PCfg V) : List (Tok V) → Expr V × Expr V → Prop
  | both {us l vs r} : Derives true pc us l → Derives true pc vs r → EqOf pc (us ++ .sym .equals :: vs) (l, r)
  | left {us l} : Derives true pc us l → EqOf pc us (l, .num pc.zero)

/-- A statement of the model block. -/
inductive StmtOf (pc : PCfg V) : List (Tok V) → Stmt V → Prop
  | loc {x us e} : Derives true pc us e → StmtOf pc (.sym .pound :: .id x :: .sym .equals :: us ++ [.sym .semi]) (.loc x e)
  | tagged {us a vs as ws lr} : TagOf us a → CommaTail TagOf vs as → EqOf pc ws lr →
      StmtOf pc (.sym .lbracket :: us ++ vs ++ .sym .rbracket :: ws ++ [.sym .semi]) (.eqn lr.1 lr.2 (some (a :: as)))
  | plain {ws lr} : EqOf pc ws lr → StmtOf pc (ws ++ [.sym .semi]) (.eqn lr.1 lr.2 none)

/-- A sequence of items. -/
inductive SeqOf {α : Type} (P : List (Tok V) → α → Prop) : List (Tok V) → List α → Prop
  | nil : SeqOf P [] []
  | cons {us a vs as} : P us a → SeqOf P vs as → SeqOf P (us ++ vs) (a :: as)

/-- The model block. -/
inductive ModelOf (pc : PCfg V) : List (Tok V) → List (String × ArgVal V) × List (Stmt V) → Prop
  | mk {us as vs ss} : ArgsOf pc us as → SeqOf (StmtOf pc) vs ss →
      ModelOf pc (.kw "model" :: us ++ .sym .semi :: vs ++ [.kw "end", .sym .semi]) (as, ss)

/-- Nothing, or a comma. -/
inductive OptComma : List (Tok V) → Prop
  | none : OptComma []
  | some : OptComma [.sym .comma]

/-- A period or a range of periods. -/
inductive PeriodOf : List (Tok V) → V × V → Prop
  | one {a} : PeriodOf [.num a] (a, a)
  | range {a b} : PeriodOf [.num a, .sym .colon, .num b] (a, b)

/-- A value: a number, or an expression in parentheses. -/
inductive ValueOf (pc : PCfg V) : List (Tok V) → Expr V → Prop
  | num {v} : ValueOf pc [.num v] (.num v)
  | paren {us e} : Derives false pc us e → ValueOf pc (.sym .lpare :: us ++ [.sym .rpare]) e

/-- Items that may be preceded by a comma. -/
inductive LooseOf {α : Type} (P : List (Tok V) → α → Prop) : List (Tok V) → List α → Prop
  | nil : LooseOf P [] []
  | cons {cs us a vs as} : OptComma cs → P us a → LooseOf P vs as → LooseOf P (cs ++ us ++ vs) (a :: as)

/-- A statement of the block of shocks. -/
inductive ShockOf (pc : PCfg V) : List (Tok V) → Shock V → Prop
  | corr {x y us e} : Derives false pc us e →
      ShockOf pc (.kw "corr" :: .id x :: .sym .comma :: .id y :: .sym .equals :: us ++ [.sym .semi]) (.corr x y e)
  | cov {x y us e} : Derives false pc us e →
      ShockOf pc (.kw "var" :: .id x :: .sym .comma :: .id y :: .sym .equals :: us ++ [.sym .semi]) (.cov x y e)
  | variance {x us e} : Derives false pc us e →
      ShockOf pc (.kw "var" :: .id x :: .sym .equals :: us ++ [.sym .semi]) (.variance x e)
  | stderr {x us e} : Derives false pc us e →
      ShockOf pc (.kw "var" :: .id x :: .sym .semi :: .kw "stderr" :: us ++ [.sym .semi]) (.stderr x e)
  | det {x us ps vs es} : LooseOf PeriodOf us ps → LooseOf (ValueOf pc) vs es →
      ShockOf pc (.kw "var" :: .id x :: .sym .semi :: .kw "periods" :: us ++ .sym .semi :: .kw "values" :: vs ++
        [.sym .semi]) (.det x ps es)

/-- A block after the model block. -/
inductive Block (V : Type) where
  | bound (k : String) (b : Bound V)
  | shocks (s : Shocks V)

/-- Blocks of boundary values and of shocks. -/
inductive BlockOf (pc : PCfg V) : List (Tok V) → Block V → Prop
  | bound {k us as vs bs} : k ∈ ["initval", "endval", "histval"] → ArgsOf pc us as → SeqOf (AssignOf pc) vs bs →
      BlockOf pc (.kw k :: us ++ .sym .semi :: vs ++ [.kw "end", .sym .semi]) (.bound k ⟨as, bs⟩)
  | shocks {us as vs bs} : ArgsOf pc us as → SeqOf (ShockOf pc) vs bs →
      BlockOf pc (.kw "shocks" :: us ++ .sym .semi :: vs ++ [.kw "end", .sym .semi]) (.shocks ⟨as, bs⟩)

/-- The last block of boundary values of this kind. -/
def lastBound (k : String) (bs : List (Block V)) : Option (Bound V) :=
  (bs.filterMap fun | .bound k' b => if k' = k then some b else none | _ => none).getLast?

/-- The last block of shocks. -/
def lastShocks (bs : List (Block V)) : Option (Shocks V) :=
  (bs.filterMap fun | .shocks s => some s | _ => none).getLast?

/-- A model file: declarations and assignments, the model, and blocks, of which the last of each kind counts. -/
inductive FileOf (pc : PCfg V) : List (Tok V) → ModelFile V → Prop
  | mk {us ds ps vs m ws bs} : PreOf pc us ds ps → ModelOf pc vs m → SeqOf (BlockOf pc) ws bs →
      FileOf pc (us ++ vs ++ ws) ⟨ds, ps, m.1, m.2, ⟨lastBound "initval" bs, lastBound "endval" bs,
        lastBound "histval" bs, lastShocks bs⟩⟩

end Pynare
