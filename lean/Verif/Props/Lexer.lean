import Verif.Lemmas.LexerComment
/-! # Properties C06-C10 and C15: the lexer -/

namespace Pynare

variable {V : Type}

/-! ### C06: tokenising terminates -/

/-- C06 for expression strings: the base lexer always returns tokens or raises. -/
theorem C06_base_lexer_terminates {cfg : LexCfg V} (ok : CharOk cfg) (hd : cfg.dynare = false)
    (text : List Char) : cfg.tokenize text ≠ .hang := by
  intro h
  cases text with
  | nil => cases h
  | cons c cs =>
    simp only [LexCfg.tokenize] at h
    rcases tokLoop_hang ok _ _ _ (by omega) h with ⟨suf, _, g, _⟩ | ⟨suf, _, g, _⟩
    · cases suf with
      | nil => cases g
      | cons d ds => simp [LexCfg.isLine, hd] at g
    · cases suf with
      | nil => cases g
      | cons d ds => simp [LexCfg.isBlock, hd] at g

/-- C06 for model files, the part that holds: if the lexer runs for ever, the text ends in a
line comment without a newline, or in a block comment that is opened and never closed.
Missing: texts ending in such a comment do hang, see `C06_unfinished_comment_hangs`. -/
theorem C06_hang_only_in_unfinished_comment_partial {cfg : LexCfg V} (ok : CharOk cfg)
    (text : List Char) (h : cfg.tokenize text = .hang) :
    cfg.dynare = true ∧
    ((∃ pre body, (text = pre ++ '%' :: body ∨ text = pre ++ '/' :: '/' :: body) ∧ '\n' ∉ body) ∨
     (∃ pre body, text = pre ++ '/' :: '*' :: body ∧ BlockBody body)) := by
  have hd : cfg.dynare = true := by
    cases hd : cfg.dynare with
    | true => rfl
    | false => exact absurd h (C06_base_lexer_terminates ok hd text)
  refine ⟨hd, ?_⟩
  cases text with
  | nil => cases h
  | cons c cs =>
    simp only [LexCfg.tokenize] at h
    rcases tokLoop_hang ok _ _ _ (by omega) h with ⟨suf, ⟨pre, hs⟩, g, hn⟩ | ⟨suf, ⟨pre, hs⟩, g, hn⟩
    · left
      cases suf with
      | nil => cases g
      | cons d ds =>
        simp only [LexCfg.isLine, hd, Bool.true_and, Bool.or_eq_true, beq_iff_eq,
          Bool.and_eq_true] at g
        rcases g with rfl | ⟨rfl, g⟩
        · exact ⟨pre, ds, Or.inl hs.symm, by simp_all⟩
        · cases ds with
          | nil => cases g
          | cons e ds =>
            simp at g; subst g
            exact ⟨pre, ds, Or.inr hs.symm, by simp_all⟩
    · right
      obtain ⟨_, r, rfl⟩ := isBlock_inv g
      exact ⟨pre, r, hs.symm, (noStop_iff _).mp hn⟩

/-- Consequence: a model file that ends in a newline and contains no block comment is tokenised
or rejected, never looped over. -/
theorem C06_terminates_newline_partial {cfg : LexCfg V} (ok : CharOk cfg) (text : List Char)
    (hnb : ∀ pre r, text ≠ pre ++ '/' :: '*' :: r) : cfg.tokenize (text ++ ['\n']) ≠ .hang := by
  intro h
  obtain ⟨_, ⟨pre, body, e, hb⟩ | ⟨pre, body, e, hb⟩⟩ :=
    C06_hang_only_in_unfinished_comment_partial ok _ h
  · apply hb
    have hl : ∀ (o : List Char), o ≠ [] → '\n' ∉ o → text ++ ['\n'] = pre ++ (o ++ body) →
        '\n' ∈ body := by
      intro o ho hno e
      have h1 := congrArg List.getLast? e
      rw [List.getLast?_append] at h1
      cases body with
      | nil =>
        rw [List.append_nil, List.getLast?_append, List.getLast?_eq_some_getLast ho] at h1
        simp only [List.getLast?_singleton, Option.some_or, Option.some.injEq] at h1
        exact absurd (h1 ▸ List.getLast_mem ho) hno
      | cons b bs =>
        rw [← List.append_assoc, List.getLast?_append,
          List.getLast?_eq_some_getLast (List.cons_ne_nil b bs)] at h1
        simp only [List.getLast?_singleton, Option.some_or, Option.some.injEq] at h1
        rw [h1]; exact List.getLast_mem _
    rcases e with e | e
    · exact hl ['%'] (by simp) (by decide) e
    · exact hl ['/', '/'] (by simp) (by decide) e
  · have h1 := congrArg List.dropLast e
    rw [List.dropLast_concat] at h1
    cases body with
    | nil =>
      have h2 := congrArg List.getLast? e
      simp at h2
    | cons b bs =>
      refine hnb pre ((b :: bs).dropLast) ?_
      rw [h1, List.dropLast_append_of_ne_nil (by simp)]
      simp [List.dropLast]

/-- C06 is false for model files: after any tokens, a line comment that is the last line and
lacks its newline, or a block comment left open, makes the lexer run for ever. -/
theorem C06_unfinished_comment_hangs {cfg : LexCfg V} (ok : CharOk cfg) (hd : cfg.dynare = true)
    (toks : List (Tok V)) (s opener body : List Char)
    (ho : (opener = ['%'] ∨ opener = ['/', '/']) ∧ '\n' ∉ body ∨
      opener = ['/', '*'] ∧ BlockBody body)
    (hw : Written cfg toks s (opener ++ body)) : cfg.tokenize (s ++ (opener ++ body)) = .hang := by
  have hne : opener ++ body ≠ [] := by
    rcases ho with ⟨rfl | rfl, _⟩ | ⟨rfl, _⟩ <;> simp
  have h1 : cfg.next (opener ++ body) = .hang := by
    rcases ho with ⟨ho, hb⟩ | ⟨rfl, hb⟩
    · exact next_line_hang ok hd ho hb
    · exact next_block_hang ok hd ((noStop_iff _).mpr hb)
  have h2 : cfg.kinds (s ++ (opener ++ body)) = .hang := by
    rw [kinds_eq cfg (by
      intro h; exact hne (List.append_eq_nil_iff.mp h).2),
      kindsFrom_written ok hw, kindsFrom_cons ok hne, h1]
    rfl
  unfold LexCfg.kinds at h2
  rcases Out.bind_hang_iff.mp h2 with h | ⟨a, _, h⟩
  · exact h
  · cases h

/-! ### C07: line comments are invisible -/

/-- C07.  In a model file, after any written tokens and before any text, a line comment
introduced by `%` or `//` can be deleted up to its newline without changing the tokens (or the
error). -/
theorem C07_line_comment_invisible {cfg : LexCfg V} (ok : CharOk cfg) (hd : cfg.dynare = true)
    (toks : List (Tok V)) (s opener body R : List Char)
    (ho : opener = ['%'] ∨ opener = ['/', '/']) (hb : '\n' ∉ body)
    (hw : Written cfg toks s (opener ++ body ++ '\n' :: R)) :
    cfg.kinds (s ++ (opener ++ body ++ '\n' :: R)) = cfg.kinds (s ++ '\n' :: R) := by
  rw [kinds_eq cfg (by simp), kinds_eq cfg (by simp), kindsFrom_written ok hw,
    kindsFrom_written ok (written_space ok hw (Or.inr rfl) R)]
  rw [kindsFrom_next ok (by simp) (by simp) (next_line ok hd ho hb R)]

/-! ### C08: block comments are invisible -/

/-- C08, the part that holds.  A block comment whose contents have no star, and no slash after
the first character, acts as a blank – unless the next thing in the file is a line comment.
Missing: other contents, and a following line comment; both fail, see below. -/
theorem C08_block_comment_blank_partial {cfg : LexCfg V} (ok : CharOk cfg)
    (hd : cfg.dynare = true) (toks : List (Tok V)) (s body R : List Char) (hb : BlockBody body)
    (hR : ∀ ws y, (∀ c ∈ ws, cfg.isSpace c = true) → R = ws ++ y →
      y.head? ≠ some '%' ∧ ¬ (['/', '/'] <+: y))
    (hw : Written cfg toks s (['/', '*'] ++ body ++ ['*', '/'] ++ R)) :
    cfg.kinds (s ++ (['/', '*'] ++ body ++ ['*', '/'] ++ R)) = cfg.kinds (s ++ ' ' :: R) := by
  rw [kinds_eq cfg (by simp), kinds_eq cfg (by simp), kindsFrom_written ok hw,
    kindsFrom_written ok (written_space ok hw (Or.inl rfl) R)]
  have hl : cfg.isLine (cfg.skipWs R ⟨1, 0⟩).1 = false := by
    obtain ⟨ws, h1, h2⟩ := skipWs_split cfg R
    obtain ⟨h3, h4⟩ := hR ws _ h1 h2
    cases hy : (cfg.skipWs R ⟨1, 0⟩).1 with
    | nil => rfl
    | cons c cs =>
      rw [hy] at h3 h4
      have hc : c ≠ '%' := by simpa using h3
      cases cs with
      | nil => simp [LexCfg.isLine, hc]
      | cons d cs =>
        simp only [LexCfg.isLine, hd, List.head?_cons, Bool.true_and, Bool.or_eq_false_iff,
          beq_eq_false_iff_ne, ne_eq, hc, not_false_eq_true, true_and, Bool.and_eq_false_iff,
          Option.some.injEq]
        by_cases e : c = '/'
        · right
          rintro rfl
          subst e
          exact h4 (by simp)
        · exact Or.inl e
  rw [kindsFrom_next ok (by simp) (by simp) (next_block ok hd hb R hl)]

/-- C08 is false: a star inside a block comment ends it. -/
theorem C08_inner_star_ends_comment :
    (asciiCfg true false).kinds "a/* x*y */b".toList ≠ (asciiCfg true false).kinds "a b".toList := by
  decide

/-- C08 is false: a slash inside a block comment ends it. -/
theorem C08_inner_slash_ends_comment :
    (asciiCfg true false).kinds "a/* w/r z*/b".toList ≠ (asciiCfg true false).kinds "a b".toList := by
  decide

/-- C08 is false: a line comment directly after a block comment is read as program text. -/
theorem C08_line_comment_after_block :
    (asciiCfg true false).kinds "a /* c */ % d\nb".toList = .ok [.id "a", .sym .percent, .id "d", .id "b", .eof] ∧
    (asciiCfg true false).kinds "a   % d\nb".toList = .ok [.id "a", .id "b", .eof] := by
  decide

/-! ### C09: lexing inverts printing -/

/-- C09.  Any way of writing a token sequence – each token in any of its spellings, with white
space and comments between tokens wherever wanted and required only where two tokens would be
glued – lexes back to that sequence, followed by end-of-file. -/
theorem C09_lexing_inverts_printing {cfg : LexCfg V} (ok : CharOk cfg) (toks : List (Tok V))
    (s : List Char) (hne : toks ≠ []) (hw : Written cfg toks s []) :
    cfg.kinds s = .ok (toks ++ [.eof]) := by
  have hs : s ≠ [] := by
    cases hw with
    | nil => exact absurd rfl hne
    | cons hl hsp hf _ =>
      have := (spells_start ok hsp _ hf).1
      simp [this]
  have := kindsFrom_written ok hw
  rw [List.append_nil] at this
  rw [kinds_eq cfg hs, this]
  rfl

/-- C09 with trailing white space or comments: one more end-of-file token. -/
theorem C09_trailing_layout {cfg : LexCfg V} (ok : CharOk cfg) (toks : List (Tok V))
    (s l : List Char) (hl : Layout cfg l) (hne : l ≠ []) (hw : Written cfg toks s l) :
    cfg.kinds (s ++ l) = .ok (toks ++ [.eof, .eof]) := by
  rw [kinds_eq cfg (by simp [hne]), kindsFrom_written ok hw, kindsFrom_cons ok hne]
  have := next_layout ok hl [] (by intro c hc; cases hc) rfl rfl
  rw [List.append_nil] at this
  rw [this]
  rfl

/-- Printing with a blank after every token always works, whatever the tokens. -/
theorem C09_blank_separated {cfg : LexCfg V} (ok : CharOk cfg) (ps : List (Tok V × List Char))
    (hsp : ∀ p ∈ ps, Spells cfg p.1 p.2) (hne : ps ≠ []) :
    cfg.kinds (ps.flatMap fun p => p.2 ++ [' ']) = .ok (ps.map Prod.fst ++ [.eof, .eof]) := by
  have lay : ∀ ws : List Char, (∀ c ∈ ws, cfg.isSpace c = true) → Layout cfg ws := by
    intro ws hws
    have := Layout.mk (cfg := cfg) (ws := ws) (ls := []) (bs := []) hws (by simp) (by simp)
    simpa using this
  have hb : ∀ c ∈ [' '], cfg.isSpace c = true := by simp [ok.space_blank]
  have key : ∀ (qs : List (Tok V × List Char)) (l : List Char), (∀ c ∈ l, cfg.isSpace c = true) →
      (∀ p ∈ qs, Spells cfg p.1 p.2) → qs ≠ [] →
      ∃ s, l ++ qs.flatMap (fun p => p.2 ++ [' ']) = s ++ [' '] ∧
        Written cfg (qs.map Prod.fst) s [' '] := by
    intro qs
    induction qs with
    | nil => intro l _ _ h; exact absurd rfl h
    | cons q qs ih =>
      intro l hl hsp _
      by_cases hq : qs = []
      · subst hq
        refine ⟨l ++ q.2 ++ [], by simp, ?_⟩
        exact .cons (lay l hl) (hsp q (by simp)) (follows_space ok _ (Or.inl rfl) _) .nil
      · obtain ⟨s, e, hw⟩ := ih [' '] hb (fun p hp => hsp p (by simp [hp])) hq
        refine ⟨l ++ q.2 ++ s, ?_, ?_⟩
        · simp only [List.flatMap_cons, List.append_assoc] at e ⊢
          rw [e]
        · refine .cons (lay l hl) (hsp q (by simp)) ?_ hw
          rw [← e]
          exact follows_space ok _ (Or.inl rfl) _
  obtain ⟨s, e, hw⟩ := key ps [] (by simp) hsp hne
  rw [List.nil_append] at e
  rw [e]
  exact C09_trailing_layout ok _ s [' '] (lay _ hb) (by simp) hw

/-! ### C10: source positions -/

/-- C10, the part that holds.  For expression strings, and for model files whose block comments
have contents the lexer handles: the position stored with each token is the line and column of
the point of the text reached just after it – the text splits there, and what remains lexes to
the tokens that follow.  Missing: other block comments, see
`C10_position_wrong_after_block_comment`. -/
theorem C10_positions_partial {cfg : LexCfg V} (ok : CharOk cfg) (text : List Char)
    (hc : BlocksClosed cfg text) (ts : List (Tok V × Pos)) (h : cfg.tokenize text = .ok ts) :
    ∀ (us vs : List (Tok V × Pos)) (t : Tok V) (p : Pos), ts = us ++ (t, p) :: vs →
      ∃ a b, text = a ++ b ∧ p = posAfter a ∧
        (b = [] ∧ (vs.map Prod.fst = [] ∨ vs.map Prod.fst = [.eof]) ∨
          cfg.kinds b = .ok (vs.map Prod.fst)) := by
  have key : ∀ (n : Nat) (cs pre : List Char) (ts : List (Tok V × Pos)), text = pre ++ cs →
      cs.length < n →
      cfg.tokLoop n cs (posAfter pre) = .ok ts →
      ∀ (us vs : List (Tok V × Pos)) (t : Tok V) (p : Pos), ts = us ++ (t, p) :: vs →
      ∃ a b, text = a ++ b ∧ p = posAfter a ∧
        (b = [] ∧ (vs.map Prod.fst = [] ∨ vs.map Prod.fst = [.eof]) ∨
          cfg.kinds b = .ok (vs.map Prod.fst)) := by
    intro n
    induction n with
    | zero => intro cs pre ts _ h; omega
    | succ n ih =>
      intro cs pre ts ht hlen h us vs t p e
      cases cs with
      | nil =>
        simp only [LexCfg.tokLoop] at h
        cases h
        cases us with
        | nil =>
          simp at e
          obtain ⟨⟨rfl, rfl⟩, rfl⟩ := e
          exact ⟨pre, [], ht, rfl, Or.inl ⟨rfl, Or.inl rfl⟩⟩
        | cons u us => simp at e
      | cons c cs =>
        simp only [LexCfg.tokLoop] at h
        obtain ⟨r, h1, h2⟩ := Out.bind_ok_iff.mp h
        obtain ⟨xs, h3, h4⟩ := Out.bind_ok_iff.mp h2
        cases h4
        have hc' : BlocksClosed cfg (c :: cs) := hc.suffix ⟨pre, ht.symm⟩
        obtain ⟨w, e1, e2⟩ := nextToken_tracks (c :: cs) pre hc' r h1
        have hlt := (nextToken_progress ok h1).2
        have ht' : text = (pre ++ w) ++ r.2.1 := by rw [ht, e1]; simp
        rw [e2] at h3
        simp only [List.length_cons] at hlt hlen
        cases us with
        | cons u us =>
          simp only [List.cons_append, List.cons.injEq] at e
          exact ih _ _ _ ht' (by omega) h3 us vs t p e.2
        | nil =>
          simp only [List.nil_append, List.cons.injEq, Prod.mk.injEq] at e
          obtain ⟨⟨rfl, rfl⟩, rfl⟩ := e
          refine ⟨pre ++ w, r.2.1, ht', e2, ?_⟩
          by_cases hr : r.2.1 = []
          · left
            refine ⟨hr, ?_⟩
            rw [hr] at h3
            cases n with
            | zero => cases h3
            | succ n =>
              simp only [LexCfg.tokLoop] at h3
              cases h3; right; rfl
          · right
            rw [kinds_eq cfg hr]
            unfold LexCfg.kindsFrom
            have := tokLoop_pos cfg (r.2.1.length + 1) r.2.1 ⟨1, 0⟩ (posAfter (pre ++ w))
            rw [this, tokLoop_fuel ok (r.2.1.length + 1) n r.2.1 _ (by omega) (by omega), h3]
            rfl
  cases text with
  | nil => cases h
  | cons c cs =>
    exact key _ (c :: cs) [] ts rfl (by omega) h

/-- C10 is false: when a block comment is ended by a star followed by a newline, the newline is
not counted. -/
theorem C10_position_wrong_after_block_comment :
    (asciiCfg true false).tokenize "/*c*\na".toList = .ok [(.id "a", ⟨1, 6⟩), (.eof, ⟨1, 6⟩)] ∧
    posAfter "/*c*\na".toList = ⟨2, 1⟩ := by
  decide

/-! ### C15: the two spellings of the exponent -/

/-- C15.  An expression written with `^` and read in standard mode gives the same tokens (or
the same error) as the expression with every `^` replaced by `**` read in Python mode, as long
as no star is directly followed by a star or an exponent sign and there are no quoted strings. -/
theorem C15_exponent_spelling {cfg : LexCfg V} (ok : CharOk cfg) (hd : cfg.dynare = false)
    (hp : cfg.pyExp = false) (text : List Char) (hs : PlainStars text) :
    LexCfg.kinds { cfg with pyExp := true } (pyText text) = cfg.kinds text := by
  by_cases hne : text = []
  · subst hne; rfl
  · rw [kinds_eq _ (pyText_ne_nil hne), kinds_eq cfg hne, kindsFrom_py ok hd hp _ text (Nat.le_refl _) hs]

/-- C15, the other direction: in Python mode no text with a `^` outside quoted strings is accepted. -/
theorem C15_caret_refused {cfg : LexCfg V} (ok : CharOk cfg) (hd : cfg.dynare = false) (hp : cfg.pyExp = true)
    (text : List Char) (hq : '\'' ∉ text ∧ '"' ∉ text) (hc : '^' ∈ text) (toks : List (Tok V)) :
    cfg.kinds text ≠ .ok toks := by
  rw [kinds_eq _ (by rintro rfl; cases hc)]
  exact kindsFrom_caret ok hd hp _ text (Nat.le_refl _) hq.1 hq.2 hc toks

example : (asciiCfg false true).dynare = false ∧ (asciiCfg false true).pyExp = true ∧
    '\'' ∉ "a+b^2".toList ∧ '"' ∉ "a+b^2".toList ∧ '^' ∈ "a+b^2".toList := by decide

/-! ### The hypotheses are met -/

example (d e : Bool) : CharOk (asciiCfg d e) := charOk_ascii d e

/-- `x = ` followed by `// note` and a newline -/
example : Written (asciiCfg true false) [.id "x", .sym .equals] "x =".toList
    (['/', '/'] ++ " note".toList ++ '\n' :: "1;".toList) := by
  have hx : Spells (asciiCfg true false) (.id "x") ['x'] := .id (cs := []) (by decide) (by simp) (by decide) (fn_none.mp (by decide))
  have he : Spells (asciiCfg true false) (.sym .equals) ['='] := .sym (by decide) (by decide)
  have h0 : Layout (asciiCfg true false) [] := .mk (ws := []) (ls := []) (bs := []) (by simp) (by simp) (by simp)
  have h1 : Layout (asciiCfg true false) [' '] := .mk (ws := [' ']) (ls := []) (bs := []) (by decide) (by simp) (by simp)
  exact .cons (l := []) (w := ['x']) (s := [' ', '=']) h0 hx
    (by intro c hc; simp at hc; subst hc; decide)
    (.cons (l := [' ']) (w := ['=']) (s := []) h1 he
      (by intro c hc; simp at hc; subst hc; decide) .nil)

example : (asciiCfg true false).tokenize "x // c".toList = .hang := by decide
example : (asciiCfg true false).tokenize "x /* c".toList = .hang := by decide
example : BlockBody "/ some words, 1+2".toList := ⟨by decide, by decide⟩
example : (asciiCfg true false).kinds "x/*y*/=3".toList =
  (asciiCfg true false).kinds "x =3".toList := by decide
example : PlainStars "a*(b^2)^c".toList := by simp [PlainStars]
example : pyText "a*(b^2)^c".toList = "a*(b**2)**c".toList := by decide
example : BlocksClosed (asciiCfg true false) "x/*y*/=3".toList := by
  intro _ pre r e
  rcases pre with _ | ⟨a, _ | ⟨b, _ | ⟨c, _ | ⟨d, _ | ⟨f, _ | ⟨g, _ | ⟨h, _ | ⟨i, pre⟩⟩⟩⟩⟩⟩⟩⟩ <;>
    simp at e
  exact ⟨['y'], ['=', '3'], by simp [e], by decide, by decide⟩

#print axioms C06_base_lexer_terminates
#print axioms C06_hang_only_in_unfinished_comment_partial
#print axioms C06_terminates_newline_partial
#print axioms C06_unfinished_comment_hangs
#print axioms C07_line_comment_invisible
#print axioms C08_block_comment_blank_partial
#print axioms C09_lexing_inverts_printing
#print axioms C09_trailing_layout
#print axioms C09_blank_separated
#print axioms C10_positions_partial
#print axioms C15_exponent_spelling
#print axioms C15_caret_refused

end Pynare
