import Verif.Lemmas.LexerPos
/-! Comments inside arbitrary texts, and where the lexer can hang. -/

namespace Pynare

variable {V : Type}

theorem skipWs_noWs (cfg : LexCfg V) (cs : List Char) (p : Pos) : NoWs cfg (cfg.skipWs cs p).1 := by
  intro c hc
  induction cs generalizing p with
  | nil => simp [LexCfg.skipWs, spanAdv] at hc
  | cons d cs ih =>
    by_cases h : cfg.isSpace d = true
    · apply ih (p.over d)
      simpa [LexCfg.skipWs, spanAdv, h] using hc
    · simp [LexCfg.skipWs, spanAdv, h] at hc
      subst hc; simpa using h

theorem skipWs_fst_pos (cfg : LexCfg V) (cs : List Char) (p q : Pos) :
    (cfg.skipWs cs p).1 = (cfg.skipWs cs q).1 := by
  induction cs generalizing p q with
  | nil => rfl
  | cons d cs ih =>
    by_cases h : cfg.isSpace d = true
    · have := ih (p.over d) (q.over d)
      simpa [LexCfg.skipWs, spanAdv, h] using this
    · simp [LexCfg.skipWs, spanAdv, h]

theorem skipWs_split (cfg : LexCfg V) (cs : List Char) :
    ∃ ws, (∀ c ∈ ws, cfg.isSpace c = true) ∧ cs = ws ++ (cfg.skipWs cs ⟨1, 0⟩).1 := by
  have h := spanAdv_decomp cfg.isSpace cs ⟨1, 0⟩
  exact ⟨_, h.2.1, h.1.symm⟩

theorem skipWs_nl {cfg : LexCfg V} (ok : CharOk cfg) (R : List Char) (p : Pos) :
    (cfg.skipWs ('\n' :: R) p).1 = (cfg.skipWs R p).1 := by
  simp only [LexCfg.skipWs, spanAdv, ok.space_nl, if_true]
  exact skipWs_fst_pos cfg R _ _

theorem skipWs_blank {cfg : LexCfg V} (ok : CharOk cfg) (R : List Char) (p : Pos) :
    (cfg.skipWs (' ' :: R) p).1 = (cfg.skipWs R p).1 := by
  simp only [LexCfg.skipWs, spanAdv, ok.space_blank, if_true]
  exact skipWs_fst_pos cfg R _ _

/-- fuel- and position-independent tail of `next` -/
def LexCfg.tail (cfg : LexCfg V) (y : List Char) : Out (Tok V × List Char) :=
  cfg.skipLines (y.length + 1) y ⟨1, 0⟩ >>= fun s1 =>
    cfg.skipBlocks (s1.1.length + 1) s1.1 ⟨1, 0⟩ >>= fun s2 => (cfg.lexOne s2.1 ⟨1, 0⟩).map noPos

theorem next_tail (cfg : LexCfg V) (cs : List Char) :
    cfg.next cs = cfg.tail (cfg.skipWs cs ⟨1, 0⟩).1 := by
  rw [next_unfold cfg cs ⟨1, 0⟩]
  cases h : (cfg.skipWs cs ⟨1, 0⟩).1 with
  | nil => rfl
  | cons c r => rfl

theorem tail_line {cfg : LexCfg V} (ok : CharOk cfg) (hd : cfg.dynare = true) {l : List Char}
    (h : LineComment cfg l) (y : List Char) (hy : NoWs cfg y) : cfg.tail (l ++ y) = cfg.tail y := by
  obtain ⟨_, h2, hne, p', h3⟩ := lineComment_inv ok hd h y hy ⟨1, 0⟩
  unfold LexCfg.tail
  rw [LexCfg.skipLines, if_pos h2, h3]
  simp only [Out.ok_bind]
  have hlen := List.length_pos_iff.mpr hne
  rw [skipLines_fuel cfg (l ++ y).length (y.length + 1) y p' (by simp; omega) (by omega)]
  refine Out.bind_congr_map (skipLines_pos _ _ _ _ _) ?_
  rintro ⟨a, pa⟩ ⟨b, pb⟩ e
  simp only at e
  subst e
  rfl

theorem tail_block {cfg : LexCfg V} (ok : CharOk cfg) (hd : cfg.dynare = true) {l : List Char}
    (h : BlockComment cfg l) (y : List Char) (hy : NoWs cfg y) (hl : cfg.isLine y = false) :
    cfg.tail (l ++ y) = cfg.tail y := by
  obtain ⟨_, h2, h0, hne, p', h3⟩ := blockComment_inv ok hd h y hy ⟨1, 0⟩
  unfold LexCfg.tail
  rw [LexCfg.skipLines, if_neg (by simp [h0]), LexCfg.skipLines, if_neg (by simp [hl])]
  simp only [Out.ok_bind]
  rw [LexCfg.skipBlocks, if_pos h2, h3]
  simp only [Out.ok_bind]
  have hlen := List.length_pos_iff.mpr hne
  rw [skipBlocks_fuel cfg (l ++ y).length (y.length + 1) y p' (by simp; omega) (by omega)]
  refine Out.bind_congr_map (skipBlocks_pos _ _ _ _ _) ?_
  rintro ⟨a, pa⟩ ⟨b, pb⟩ e
  simp only at e
  subst e
  rfl

theorem next_line {cfg : LexCfg V} (ok : CharOk cfg) (hd : cfg.dynare = true)
    {opener body : List Char} (ho : opener = ['%'] ∨ opener = ['/', '/']) (hb : '\n' ∉ body)
    (R : List Char) : cfg.next (opener ++ body ++ '\n' :: R) = cfg.next ('\n' :: R) := by
  obtain ⟨ws, hws, hR⟩ := skipWs_split cfg R
  rw [next_tail, next_tail, skipWs_nl ok]
  have hlc : LineComment cfg (opener ++ body ++ '\n' :: ws) := .mk ho hb hws
  have hy := skipWs_noWs cfg R ⟨1, 0⟩
  have e : opener ++ body ++ '\n' :: R =
      (opener ++ body ++ '\n' :: ws) ++ (cfg.skipWs R ⟨1, 0⟩).1 := by
    conv => lhs; rw [hR]
    simp
  rw [e, skipWs_of_head cfg _ _ (lineComment_inv ok hd hlc _ hy ⟨1, 0⟩).1]
  exact tail_line ok hd hlc _ hy

theorem next_block {cfg : LexCfg V} (ok : CharOk cfg) (hd : cfg.dynare = true)
    {body : List Char} (hb : BlockBody body) (R : List Char)
    (hl : cfg.isLine (cfg.skipWs R ⟨1, 0⟩).1 = false) :
    cfg.next (['/', '*'] ++ body ++ ['*', '/'] ++ R) = cfg.next (' ' :: R) := by
  obtain ⟨ws, hws, hR⟩ := skipWs_split cfg R
  rw [next_tail, next_tail, skipWs_blank ok]
  have hlc : BlockComment cfg (['/', '*'] ++ body ++ ['*', '/'] ++ ws) := .mk hb hws
  have hy := skipWs_noWs cfg R ⟨1, 0⟩
  have e : ['/', '*'] ++ body ++ ['*', '/'] ++ R =
      (['/', '*'] ++ body ++ ['*', '/'] ++ ws) ++ (cfg.skipWs R ⟨1, 0⟩).1 := by
    conv => lhs; rw [hR]
    simp
  rw [e, skipWs_of_head cfg _ _ (blockComment_inv ok hd hlc _ hy ⟨1, 0⟩).1]
  exact tail_block ok hd hlc _ hy hl

/-- white space may always follow a token -/
theorem follows_space {cfg : LexCfg V} (ok : CharOk cfg) (t : Tok V) {c : Char}
    (hc : c = ' ' ∨ c = '\n') (R : List Char) : Follows cfg t (c :: R) := by
  have ha : cfg.isAlnum c = false := by
    cases h : cfg.isAlnum c with
    | false => rfl
    | true =>
      have := ok.alnum_not_space c h
      rcases hc with rfl | rfl
      · rw [ok.space_blank] at this; cases this
      · rw [ok.space_nl] at this; cases this
  have hne : c ≠ '_' ∧ c ≠ '.' ∧ c ≠ '=' ∧ c ≠ '*' ∧ c ≠ '/' := by
    rcases hc with rfl | rfl <;> decide
  intro d hd
  simp at hd; subst hd
  have h1 := varChar_false_of_punct ha hne.1
  have h2 := numChar_false ok ha hne.2.1
  rcases t with _ | _ | _ | _ | _ | s | _ <;> simp [h1, h2]
  cases s <;> simp [hne]

/-- what follows may be replaced by white space -/
theorem written_space {cfg : LexCfg V} (ok : CharOk cfg) {toks : List (Tok V)} {s R : List Char}
    (h : Written cfg toks s R) {c : Char} (hc : c = ' ' ∨ c = '\n') (R' : List Char) :
    Written cfg toks s (c :: R') := by
  induction h with
  | nil => exact .nil
  | @cons t ts l w s R hl hs hf _ ih =>
    refine .cons hl hs ?_ ih
    cases s with
    | nil => exact follows_space ok t hc R'
    | cons d s => exact hf

theorem kindsFrom_next {cfg : LexCfg V} (ok : CharOk cfg) {a b : List Char} (ha : a ≠ [])
    (hb : b ≠ []) (h : cfg.next a = cfg.next b) : cfg.kindsFrom a = cfg.kindsFrom b := by
  rw [kindsFrom_cons ok ha, kindsFrom_cons ok hb, h]

/-! ### Hanging -/

theorem noStop_iff (b : List Char) : NoStop b ↔ BlockBody b := by
  induction b with
  | nil => simp [NoStop, BlockBody]
  | cons c b ih =>
    simp only [NoStop, ih, BlockBody, List.mem_cons, not_or, List.tail_cons]
    cases b with
    | nil => simp [eq_comm]
    | cons d b =>
      simp only [List.head?_cons, List.tail_cons, List.mem_cons, not_or, ne_eq, Option.some.injEq]
      constructor
      · rintro ⟨h1, h2, h3, h4⟩; exact ⟨⟨Ne.symm h1, h3⟩, Ne.symm h2, h4⟩
      · rintro ⟨⟨h1, h3⟩, h2, h4⟩; exact ⟨Ne.symm h1, Ne.symm h2, h3, h4⟩


theorem nextToken_hang (cfg : LexCfg V) (cs : List Char) (p : Pos)
    (h : cfg.nextToken cs p = .hang) :
    (∃ suf, suf <:+ cs ∧ cfg.isLine suf = true ∧ '\n' ∉ suf) ∨
    (∃ suf, suf <:+ cs ∧ cfg.isBlock suf = true ∧ NoStop (suf.drop 2)) := by
  unfold LexCfg.nextToken at h
  simp only at h
  have hs := skipWs_isSuffix cfg cs p
  split at h
  · cases h
  · rcases Out.bind_hang_iff.mp h with h1 | ⟨a, h1, h2⟩
    · obtain ⟨suf, g1, g2⟩ := skipLines_hang cfg _ _ _ (by omega) h1
      exact Or.inl ⟨suf, g1.trans hs, g2⟩
    · have ha := (skipLines_suffix cfg _ _ _ _ h1).trans hs
      rcases Out.bind_hang_iff.mp h2 with h3 | ⟨b, h3, h4⟩
      · obtain ⟨suf, g1, g2⟩ := skipBlocks_hang cfg _ _ _ (by omega) h3
        exact Or.inr ⟨suf, g1.trans ha, g2⟩
      · exact absurd h4 (lexOne_not_hang _ _ _)

theorem tokLoop_hang {cfg : LexCfg V} (ok : CharOk cfg) (n : Nat) (cs : List Char) (p : Pos)
    (hn : cs.length < n) (h : cfg.tokLoop n cs p = .hang) :
    (∃ suf, suf <:+ cs ∧ cfg.isLine suf = true ∧ '\n' ∉ suf) ∨
    (∃ suf, suf <:+ cs ∧ cfg.isBlock suf = true ∧ NoStop (suf.drop 2)) := by
  induction n generalizing cs p with
  | zero => omega
  | succ n ih =>
    cases cs with
    | nil => cases h
    | cons c cs =>
      simp only [LexCfg.tokLoop] at h
      rcases Out.bind_hang_iff.mp h with h1 | ⟨a, h1, h2⟩
      · exact nextToken_hang cfg _ _ h1
      · obtain ⟨hs, hlt⟩ := nextToken_progress ok h1
        rcases Out.bind_hang_iff.mp h2 with h3 | ⟨b, h3, h4⟩
        · rcases ih a.2.1 a.2.2 (by omega) h3 with ⟨suf, g1, g2⟩ | ⟨suf, g1, g2⟩
          · exact Or.inl ⟨suf, g1.trans hs, g2⟩
          · exact Or.inr ⟨suf, g1.trans hs, g2⟩
        · cases h4

theorem next_line_hang {cfg : LexCfg V} (ok : CharOk cfg) (hd : cfg.dynare = true)
    {opener body : List Char} (ho : opener = ['%'] ∨ opener = ['/', '/']) (hb : '\n' ∉ body) :
    cfg.next (opener ++ body) = .hang := by
  have hnl : '\n' ∉ opener ++ body := by rcases ho with rfl | rfl <;> simp [hb]
  have hw : NoWs cfg (opener ++ body) := by
    intro c hc
    rcases ho with rfl | rfl <;> simp at hc <;> subst hc <;>
      exact ok.punct_not_space _ (by decide)
  have hl : cfg.isLine (opener ++ body) = true := by
    rcases ho with rfl | rfl <;> simp [LexCfg.isLine, hd]
  rw [next_tail, skipWs_of_head cfg _ _ hw]
  unfold LexCfg.tail
  rw [LexCfg.skipLines, if_pos hl]
  have : cfg.skipLine (opener ++ body) ⟨1, 0⟩ = .hang := by
    unfold LexCfg.skipLine
    rw [(skipLineLoop_none _ _).mpr hnl]
  rw [this]
  rfl

theorem next_block_hang {cfg : LexCfg V} (ok : CharOk cfg) (hd : cfg.dynare = true)
    {body : List Char} (hb : NoStop body) :
    cfg.next ('/' :: '*' :: body) = .hang := by
  have hw : NoWs cfg ('/' :: '*' :: body) := by
    intro c hc
    simp at hc; subst hc
    exact ok.punct_not_space _ (by decide)
  have hl : cfg.isLine ('/' :: '*' :: body) = false := by simp [LexCfg.isLine]
  have hbk : cfg.isBlock ('/' :: '*' :: body) = true := by simp [LexCfg.isBlock, hd]
  rw [next_tail, skipWs_of_head cfg _ _ hw]
  unfold LexCfg.tail
  rw [LexCfg.skipLines, if_neg (by simp [hl])]
  simp only [Out.ok_bind]
  rw [LexCfg.skipBlocks, if_pos hbk]
  have : cfg.skipBlock ('/' :: '*' :: body) ⟨1, 0⟩ = .hang := by
    unfold LexCfg.skipBlock
    rw [show advance2 ('/' :: '*' :: body) ⟨1, 0⟩ = (body, (⟨1, 0⟩ : Pos).over '/' 2) from rfl]
    simp only [(skipBlockLoop_none _ _).mpr hb]
  rw [this]
  rfl

theorem charOk_ascii (d e : Bool) : CharOk (asciiCfg d e) where
  space_nl := rfl
  space_blank := rfl
  alpha_alnum c h := by
    simp only [asciiCfg, Bool.or_eq_true, decide_eq_true_eq] at h ⊢
    exact Or.inl h
  digit_alnum c h := by
    simp only [asciiCfg, Bool.or_eq_true, decide_eq_true_eq] at h ⊢
    exact Or.inr h
  digit_not_alpha c h := by
    simp only [asciiCfg, decide_eq_true_eq] at h
    simp only [asciiCfg, Bool.or_eq_false_iff, decide_eq_false_iff_not]
    exact ⟨fun h' => absurd (Char.le_trans h'.1 h.2) (by decide),
      fun h' => absurd (Char.le_trans h'.1 h.2) (by decide)⟩
  alnum_not_space c h := by
    have : ∀ s : Char, (asciiCfg d e).isAlnum s = false → c ≠ s := by
      rintro s hs rfl; rw [h] at hs; cases hs
    have h1 := this ' ' rfl
    have h2 := this '\n' rfl
    have h3 := this '\t' rfl
    have h4 := this '\r' rfl
    simp [asciiCfg, h1, h2, h3, h4]
  punct_not_alnum := by cases d <;> cases e <;> decide
  punct_not_space := by cases d <;> cases e <;> decide

end Pynare
