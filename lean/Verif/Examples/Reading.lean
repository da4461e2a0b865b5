import Verif.Lemmas.ReadingMore
import Verif.Props.ModelObj
/-!
# A concrete file, text and environment for the examples of C118 – C123
-/

namespace Pynare

variable {V : Type}

/-- ASCII characters, integers, and the keywords of model files -/
def fileCfg : LexCfg Int :=
  { isSpace := (asciiCfg true false).isSpace
    isAlpha := (asciiCfg true false).isAlpha
    isAlnum := (asciiCfg true false).isAlnum
    isDigit := (asciiCfg true false).isDigit
    toNum := fun cs => ((asciiCfg true false).toNum cs).map Int.ofNat
    dynare := true
    pyExp := false
    keywords := ["var", "varexo", "varexo_det", "parameters", "model", "end", "initval", "endval", "histval",
      "shocks", "stderr", "corr", "periods", "values"] }

theorem charOk_file : CharOk fileCfg :=
  have h := charOk_ascii true false
  ⟨h.1, h.2, h.3, h.4, h.5, h.6, h.7, h.8⟩

/-- integers for the parser -/
def intPC : PCfg Int := ⟨fun n => .ok n.toNat, 0⟩

/-- everything the reader delegates -/
def fileRead : ReadEnv Int Int Int := ⟨fileCfg, intPC, fun v => .ok (v * v), toyEnv2⟩

/-- decides `Spells` -/
def spelled [DecidableEq V] (cfg : LexCfg V) (t : Tok V) (w : List Char) : Bool :=
  match w with
  | [] => false
  | c :: cs => match t with
    | .id s => cfg.begChar c && cs.all cfg.varChar && (s == String.ofList (c :: cs)) &&
        !(cfg.keywords.contains s) && (Fn.ofName s).isNone
    | .kw s => cfg.begChar c && cs.all cfg.varChar && (s == String.ofList (c :: cs)) && cfg.keywords.contains s
    | .num v => (c :: cs).all cfg.numChar && (cfg.toNum (c :: cs) == some v)
    | .sym s => (s.text cfg.pyExp == some (c :: cs)) && !(cfg.dynare && s == .percent)
    | _ => false

theorem spells_of [DecidableEq V] {cfg : LexCfg V} {t : Tok V} {w : List Char} (h : spelled cfg t w = true) :
    Spells cfg t w := by
  unfold spelled at h
  split at h
  · cases h
  · rename_i c cs
    cases t with
    | id s =>
      simp only [Bool.and_eq_true, List.all_eq_true, beq_iff_eq, Bool.not_eq_true', Option.isNone_iff_eq_none] at h
      obtain ⟨⟨⟨⟨h1, h2⟩, rfl⟩, h4⟩, h5⟩ := h
      exact .id h1 h2 (by simpa using h4) (fn_none.mp h5)
    | kw s =>
      simp only [Bool.and_eq_true, List.all_eq_true, beq_iff_eq] at h
      obtain ⟨⟨⟨h1, h2⟩, rfl⟩, h4⟩ := h
      exact .kw h1 h2 (by simpa using h4)
    | num v =>
      simp only [Bool.and_eq_true, List.all_eq_true, beq_iff_eq] at h
      exact .num h.1 h.2
    | sym s =>
      simp only [Bool.and_eq_true, beq_iff_eq, Bool.not_eq_true', Bool.and_eq_false_iff] at h
      refine .sym h.1 ?_
      rintro ⟨a, rfl⟩
      rcases h.2 with h | h
      · rw [a] at h; cases h
      · simp at h
    | func f => cases h
    | str s => cases h
    | eof => cases h

/-- words separated by blanks -/
def spaced : List (List Char) → List Char
  | [] => []
  | w :: ws => ' ' :: w ++ spaced ws

theorem written_spaced [DecidableEq V] {cfg : LexCfg V} (ok : CharOk cfg) : ∀ (ps : List (Tok V × List Char)),
    (∀ p ∈ ps, spelled cfg p.1 p.2 = true) → Written cfg (ps.map Prod.fst) (spaced (ps.map Prod.snd)) []
  | [], _ => .nil
  | (t, w) :: ps, h => by
    have hb : cfg.isAlnum ' ' = false := by
      cases hb : cfg.isAlnum ' ' with
      | false => rfl
      | true => have := ok.alnum_not_space _ hb; rw [ok.space_blank] at this; cases this
    have hd : cfg.isDigit ' ' = false := by
      cases hd : cfg.isDigit ' ' with
      | false => rfl
      | true => have := ok.digit_alnum _ hd; rw [hb] at this; cases this
    have hhead : ∀ c, (spaced (ps.map Prod.snd) ++ []).head? = some c → c = ' ' := by
      intro c hc
      cases ps with
      | nil => simp [spaced] at hc
      | cons p ps => simp [spaced] at hc; exact hc.symm
    refine .cons (l := [' ']) (w := w) ?_ (spells_of (h _ (by simp))) ?_
      (written_spaced ok ps fun p hp => h p (List.mem_cons_of_mem _ hp))
    · exact .mk (ws := [' ']) (ls := []) (bs := []) (by simp [ok.space_blank]) (by simp) (by simp)
    · intro c hc
      rw [hhead c hc]
      have hv : cfg.varChar ' ' = false := by simp [LexCfg.varChar, hb]
      have hn : cfg.numChar ' ' = false := by simp [LexCfg.numChar, hd]
      cases t with
      | sym s => cases s <;> simp
      | _ => first | exact hv | exact hn | trivial

theorem fileOf_check {pc : PCfg V} {us : List (Tok V)} {mf : ModelFile V}
    (hN : NoCallAfterParen (us ++ [.eof])) (he : .eof ∉ us) (h : parseModel pc (us ++ [.eof]) = .ok mf) :
    FileOf pc us mf := by
  obtain ⟨vs, rest, h1, h2⟩ := C84_sound_partial pc _ mf hN h
  have : us = vs := by
    rcases List.append_eq_append_iff.mp h1 with ⟨as, h3, h4⟩ | ⟨as, h3, h4⟩
    · cases as with
      | nil => simpa using h3.symm
      | cons a as =>
        simp only [List.cons_append, List.cons.injEq] at h4
        obtain ⟨_, h4⟩ := h4
        have := congrArg List.length h4
        simp at this
    · cases as with
      | nil => simpa using h3
      | cons a as =>
        simp only [List.cons_append, List.cons.injEq] at h4
        obtain ⟨rfl, _⟩ := h4
        exact absurd (by rw [h3]; simp) he
  rw [this]; exact h2

/-- the words of a text -/
def wordsOf : List Char → List (List Char)
  | [] => []
  | [c] => if c = ' ' then [] else [[c]]
  | c :: d :: cs =>
    if c = ' ' then wordsOf (d :: cs)
    else if d = ' ' then [c] :: wordsOf (d :: cs)
    else match wordsOf (d :: cs) with
      | w :: ws => (c :: w) :: ws
      | [] => [[c]]

/-- the token a word spells -/
def tokOf (w : List Char) : Tok Int :=
  match fileCfg.toNum w with
  | some v => .num v
  | none =>
    match [.semi, .equals, .plus, .minus, .mul, .lpare, .rpare, .comma, .pound].find? fun s =>
      Sym.text false s = some w with
    | some s => .sym s
    | none => if String.ofList w ∈ fileCfg.keywords then .kw (String.ofList w) else .id (String.ofList w)

/-- the text of an example -/
def exText (s : String) : List Char := spaced (wordsOf s.toList)

/-- its tokens -/
def exToks (s : String) : List (Tok Int) := (wordsOf s.toList).map tokOf

theorem exText_written (s : String) (h : ((wordsOf s.toList).all fun w => spelled fileCfg (tokOf w) w) = true) :
    Written fileCfg (exToks s) (exText s) [] := by
  have := written_spaced charOk_file ((wordsOf s.toList).map fun w => (tokOf w, w)) (by
    intro p hp
    obtain ⟨w, hw, rfl⟩ := List.mem_map.mp hp
    exact List.all_eq_true.mp h w hw)
  simpa [List.map_map, Function.comp_def, exToks, exText] using this

/-- a small model -/
def exSmall : String :=
  "var y ; varexo e ; parameters a ; a = 2 ; model ; # b = a + 1 ; y = b * y ( - 1 ) + e ; end ; " ++
  "initval ; y = a ; end ; shocks ; var e ; stderr 4 ; end ;"

/-- what it contains -/
def exSmallFile : ModelFile Int where
  decls := [("y", "var"), ("e", "varexo"), ("a", "parameters")]
  params := [("a", .num 2)]
  args := []
  stmts := [.loc "b" (.bin .add (.var "a") (.num 1)),
    .eqn (.var "y") (.bin .add (.bin .mul (.var "b") (.pvar "y" (-1))) (.var "e")) none]
  actions := ⟨some ⟨[], [("y", .var "a")]⟩, none, none, some ⟨[], [.stderr "e" (.num 4)]⟩⟩

theorem exSmall_file : FileOf intPC (exToks exSmall) exSmallFile :=
  fileOf_check (noCall_of_check _ (by decide +kernel)) (by decide +kernel) (by decide +kernel)

theorem exSmall_written : Written fileCfg (exToks exSmall) (exText exSmall) [] :=
  exText_written _ (by decide +kernel)

/-- a model with a local variable defined by an endogenous one -/
def exLocal : String :=
  "var y ; varexo e ; parameters a ; a = 2 ; model ; # b = y + a ; y = b + e ; end ; shocks ; var e ; stderr 1 ; end ;"

/-- what it contains -/
def exLocalFile : ModelFile Int where
  decls := [("y", "var"), ("e", "varexo"), ("a", "parameters")]
  params := [("a", .num 2)]
  args := []
  stmts := [.loc "b" (.bin .add (.var "y") (.var "a")), .eqn (.var "y") (.bin .add (.var "b") (.var "e")) none]
  actions := ⟨none, none, none, some ⟨[], [.stderr "e" (.num 1)]⟩⟩

theorem exLocal_file : FileOf intPC (exToks exLocal) exLocalFile :=
  fileOf_check (noCall_of_check _ (by decide +kernel)) (by decide +kernel) (by decide +kernel)

theorem exLocal_written : Written fileCfg (exToks exLocal) (exText exLocal) [] :=
  exText_written _ (by decide +kernel)

/-- a model with a number that is assigned but not declared -/
def exUndecl : String :=
  "var y ; varexo e ; a = 2 ; model ; y = a + e ; end ; shocks ; var e ; stderr 1 ; end ;"

/-- what it contains -/
def exUndeclFile : ModelFile Int where
  decls := [("y", "var"), ("e", "varexo")]
  params := [("a", .num 2)]
  args := []
  stmts := [.eqn (.var "y") (.bin .add (.var "a") (.var "e")) none]
  actions := ⟨none, none, none, some ⟨[], [.stderr "e" (.num 1)]⟩⟩

theorem exUndecl_file : FileOf intPC (exToks exUndecl) exUndeclFile :=
  fileOf_check (noCall_of_check _ (by decide +kernel)) (by decide +kernel) (by decide +kernel)

theorem exUndecl_written : Written fileCfg (exToks exUndecl) (exText exUndecl) [] :=
  exText_written _ (by decide +kernel)

end Pynare
