import Verif.Lemmas.Lexer
/-! Progress, fuel and the position-free view of the lexer. -/

namespace Pynare

variable {V : Type}

theorem begChar_varChar {cfg : LexCfg V} (ok : CharOk cfg) {c : Char} (h : cfg.begChar c = true) :
    cfg.varChar c = true := by
  unfold LexCfg.begChar at h
  unfold LexCfg.varChar
  split at h
  · simp [ok.alpha_alnum c h]
  · simp only [Bool.or_eq_true] at h ⊢
    rcases h with h | h
    · exact Or.inl (ok.alpha_alnum c h)
    · exact Or.inr h

theorem skipWs_isSuffix (cfg : LexCfg V) (cs : List Char) (p : Pos) :
    (cfg.skipWs cs p).1 <:+ cs := by
  obtain ⟨w, h, _⟩ := skipWs_suffix cfg cs p
  exact ⟨w, h.symm⟩

theorem spanAdv_isSuffix (f : Char → Bool) (cs : List Char) (p : Pos) :
    (spanAdv f cs p).2.1 <:+ cs := ⟨_, (spanAdv_decomp f cs p).1⟩

theorem skipLine_spec (cfg : LexCfg V) {cs : List Char} {p : Pos} {s : List Char × Pos}
    (hl : cfg.isLine cs = true) (h : cfg.skipLine cs p = .ok s) :
    s.1 <:+ cs ∧ s.1.length < cs.length := by
  unfold LexCfg.skipLine at h
  cases h1 : skipLineLoop cs p with
  | none => rw [h1] at h; cases h
  | some x =>
    rw [h1] at h
    simp only [Out.ok.injEq] at h
    subst h
    obtain ⟨w, r, e1, e2, e3⟩ := skipLineLoop_some cs p x.1 x.2 h1
    have hw : w ≠ [] := by
      rintro rfl
      rw [e1] at hl
      simp [LexCfg.isLine] at hl
    have hs : (cfg.skipWs x.1 x.2).1 <:+ '\n' :: r := by
      have := skipWs_isSuffix cfg x.1 x.2
      rw [e2] at this; exact e2 ▸ this
    refine ⟨hs.trans ⟨w, e1.symm⟩, ?_⟩
    have h2 := hs.length_le
    have : cs.length = w.length + ('\n' :: r).length := by rw [e1]; simp
    have := List.length_pos_iff.mpr hw
    omega

theorem advance2_suffix (cs : List Char) (p : Pos) : (advance2 cs p).1 <:+ cs := by
  cases cs with
  | nil => exact ⟨[], rfl⟩
  | cons c cs => exact (List.drop_suffix 1 cs).trans (List.suffix_cons c cs)

theorem advance2_length (cs : List Char) (p : Pos) (h : cs ≠ []) :
    (advance2 cs p).1.length < cs.length := by
  cases cs with
  | nil => exact absurd rfl h
  | cons c cs => simp [advance2]; omega

theorem skipBlock_spec (cfg : LexCfg V) {cs : List Char} {p : Pos} {s : List Char × Pos}
    (hl : cfg.isBlock cs = true) (h : cfg.skipBlock cs p = .ok s) :
    s.1 <:+ cs ∧ s.1.length < cs.length := by
  have hne : cs ≠ [] := by rintro rfl; cases hl
  unfold LexCfg.skipBlock at h
  simp only at h
  cases h1 : skipBlockLoop (advance2 cs p).1 (advance2 cs p).2 with
  | none => rw [h1] at h; cases h
  | some x =>
    rw [h1] at h
    simp only [Out.ok.injEq] at h
    subst h
    obtain ⟨w, hw⟩ := skipBlockLoop_le _ _ _ h1
    have a1 := advance2_suffix cs p
    have a2 := advance2_length cs p hne
    have a3 : x.1 <:+ (advance2 cs p).1 := ⟨w, hw.symm⟩
    have a4 := advance2_suffix x.1 x.2
    have a5 := skipWs_isSuffix cfg (advance2 x.1 x.2).1 (advance2 x.1 x.2).2
    have a6 := a5.trans (a4.trans a3)
    exact ⟨a6.trans a1, lt_of_le_of_lt a6.length_le a2⟩
where
  lt_of_le_of_lt {a b c : Nat} (h : a ≤ b) (h' : b < c) : a < c := by omega

theorem skipLines_suffix (cfg : LexCfg V) (n : Nat) (cs : List Char) (p : Pos) (s : List Char × Pos)
    (h : cfg.skipLines n cs p = .ok s) : s.1 <:+ cs := by
  induction n generalizing cs p with
  | zero => cases h
  | succ n ih =>
    simp only [LexCfg.skipLines] at h
    split at h
    · rename_i hl
      obtain ⟨a, h1, h2⟩ := Out.bind_ok_iff.mp h
      exact (ih _ _ h2).trans (skipLine_spec cfg hl h1).1
    · cases h; exact List.suffix_refl _

theorem skipBlocks_suffix (cfg : LexCfg V) (n : Nat) (cs : List Char) (p : Pos) (s : List Char × Pos)
    (h : cfg.skipBlocks n cs p = .ok s) : s.1 <:+ cs := by
  induction n generalizing cs p with
  | zero => cases h
  | succ n ih =>
    simp only [LexCfg.skipBlocks] at h
    split at h
    · rename_i hl
      obtain ⟨a, h1, h2⟩ := Out.bind_ok_iff.mp h
      exact (ih _ _ h2).trans (skipBlock_spec cfg hl h1).1
    · cases h; exact List.suffix_refl _

/-- extra rounds change nothing -/
theorem skipLines_fuel (cfg : LexCfg V) (n m : Nat) (cs : List Char) (p : Pos)
    (hn : cs.length < n) (hm : cs.length < m) : cfg.skipLines n cs p = cfg.skipLines m cs p := by
  induction n generalizing m cs p with
  | zero => omega
  | succ n ih =>
    cases m with
    | zero => omega
    | succ m =>
      simp only [LexCfg.skipLines]
      split
      · rename_i hl
        cases h1 : cfg.skipLine cs p with
        | err e => rfl
        | hang => rfl
        | ok s =>
          have := (skipLine_spec cfg hl h1).2
          exact ih m s.1 s.2 (by omega) (by omega)
      · rfl

/-- extra rounds change nothing -/
theorem skipBlocks_fuel (cfg : LexCfg V) (n m : Nat) (cs : List Char) (p : Pos)
    (hn : cs.length < n) (hm : cs.length < m) : cfg.skipBlocks n cs p = cfg.skipBlocks m cs p := by
  induction n generalizing m cs p with
  | zero => omega
  | succ n ih =>
    cases m with
    | zero => omega
    | succ m =>
      simp only [LexCfg.skipBlocks]
      split
      · rename_i hl
        cases h1 : cfg.skipBlock cs p with
        | err e => rfl
        | hang => rfl
        | ok s =>
          have := (skipBlock_spec cfg hl h1).2
          exact ih m s.1 s.2 (by omega) (by omega)
      · rfl

/-- a hang of the line-comment loop is an unterminated comment -/
theorem skipLines_hang (cfg : LexCfg V) (n : Nat) (cs : List Char) (p : Pos)
    (hn : cs.length < n) (h : cfg.skipLines n cs p = .hang) :
    ∃ suf, suf <:+ cs ∧ cfg.isLine suf = true ∧ '\n' ∉ suf := by
  induction n generalizing cs p with
  | zero => omega
  | succ n ih =>
    simp only [LexCfg.skipLines] at h
    split at h
    · rename_i hl
      rcases Out.bind_hang_iff.mp h with h1 | ⟨a, h1, h2⟩
      · refine ⟨cs, List.suffix_refl _, hl, ?_⟩
        unfold LexCfg.skipLine at h1
        split at h1
        · rename_i h3; exact (skipLineLoop_none cs p).mp h3
        · cases h1
      · obtain ⟨hs, hlt⟩ := skipLine_spec cfg hl h1
        obtain ⟨suf, g1, g2⟩ := ih a.1 a.2 (by omega) h2
        exact ⟨suf, g1.trans hs, g2⟩
    · cases h

/-- a hang of the block-comment loop is an unterminated comment -/
theorem skipBlocks_hang (cfg : LexCfg V) (n : Nat) (cs : List Char) (p : Pos)
    (hn : cs.length < n) (h : cfg.skipBlocks n cs p = .hang) :
    ∃ suf, suf <:+ cs ∧ cfg.isBlock suf = true ∧ NoStop (suf.drop 2) := by
  induction n generalizing cs p with
  | zero => omega
  | succ n ih =>
    simp only [LexCfg.skipBlocks] at h
    split at h
    · rename_i hl
      rcases Out.bind_hang_iff.mp h with h1 | ⟨a, h1, h2⟩
      · refine ⟨cs, List.suffix_refl _, hl, ?_⟩
        unfold LexCfg.skipBlock at h1
        simp only at h1
        split at h1
        · rename_i h3
          have := (skipBlockLoop_none _ _).mp h3
          cases cs with
          | nil => cases hl
          | cons c cs => simpa [advance2] using this
        · cases h1
      · obtain ⟨hs, hlt⟩ := skipBlock_spec cfg hl h1
        obtain ⟨suf, g1, g2⟩ := ih a.1 a.2 (by omega) h2
        exact ⟨suf, g1.trans hs, g2⟩
    · cases h

theorem lexStrBody_suffix (q : Char) (cs : List Char) (p : Pos) (r : List Char × List Char × Pos)
    (h : lexStrBody q cs p = .ok r) : r.2.1 <:+ cs := by
  induction cs generalizing p r with
  | nil => cases h
  | cons c cs ih =>
    simp only [lexStrBody] at h
    split at h
    · cases h; exact List.suffix_cons _ _
    · obtain ⟨a, h1, h2⟩ := Out.bind_ok_iff.mp h
      cases h2
      exact (ih _ _ h1).trans (List.suffix_cons _ _)

theorem lexStrBody_not_hang (q : Char) (cs : List Char) (p : Pos) : lexStrBody q cs p ≠ .hang := by
  induction cs generalizing p with
  | nil => simp [lexStrBody]
  | cons c cs ih =>
    simp only [lexStrBody]
    split
    · simp
    · intro h
      rcases Out.bind_hang_iff.mp h with h1 | ⟨a, h1, h2⟩
      · exact ih _ h1
      · cases h2

theorem lexOne_spec {cfg : LexCfg V} (ok : CharOk cfg) {c : Char} {cs : List Char} {p : Pos}
    {r : Tok V × List Char × Pos} (h : cfg.lexOne (c :: cs) p = .ok r) : r.2.1 <:+ cs := by
  simp only [LexCfg.lexOne] at h
  split at h
  · rename_i hb
    cases h
    simp only [LexCfg.lexId, spanAdv, begChar_varChar ok hb, if_true]
    exact spanAdv_isSuffix _ _ _
  split at h
  · rename_i hb
    simp only [LexCfg.lexNum, spanAdv, hb, if_true] at h
    split at h
    · cases h; exact spanAdv_isSuffix _ _ _
    · cases h
  split at h
  · obtain ⟨a, h1, h2⟩ := Out.bind_ok_iff.mp h
    cases h2
    exact lexStrBody_suffix _ _ _ _ h1
  split at h
  · cases h; exact List.drop_suffix _ _
  · cases h

theorem lexOne_not_hang (cfg : LexCfg V) (cs : List Char) (p : Pos) : cfg.lexOne cs p ≠ .hang := by
  cases cs with
  | nil => simp [LexCfg.lexOne]
  | cons c cs =>
    intro h
    simp only [LexCfg.lexOne] at h
    split at h
    · cases h
    split at h
    · simp only [LexCfg.lexNum] at h
      split at h <;> cases h
    split at h
    · rcases Out.bind_hang_iff.mp h with h1 | ⟨a, h1, h2⟩
      · exact lexStrBody_not_hang _ _ _ h1
      · cases h2
    split at h <;> cases h

/-- every token consumes text -/
theorem nextToken_progress {cfg : LexCfg V} (ok : CharOk cfg) {c : Char} {cs : List Char} {p : Pos}
    {r : Tok V × List Char × Pos} (h : cfg.nextToken (c :: cs) p = .ok r) :
    r.2.1 <:+ c :: cs ∧ r.2.1.length < (c :: cs).length := by
  unfold LexCfg.nextToken at h
  simp only at h
  have hw := skipWs_isSuffix cfg (c :: cs) p
  split at h
  · cases h
    exact ⟨List.nil_suffix, by simp⟩
  · obtain ⟨a, h1, h2⟩ := Out.bind_ok_iff.mp h
    obtain ⟨b, h3, h4⟩ := Out.bind_ok_iff.mp h2
    have s1 := skipLines_suffix cfg _ _ _ _ h1
    have s2 := skipBlocks_suffix cfg _ _ _ _ h3
    have s3 := s2.trans (s1.trans hw)
    cases hb : b.1 with
    | nil =>
      rw [hb] at h4
      cases h4
      exact ⟨List.nil_suffix, by simp⟩
    | cons d ds =>
      rw [hb] at h4 s3
      have s4 := lexOne_spec ok h4
      have s5 := s4.trans ((List.suffix_cons d ds).trans s3)
      refine ⟨s5, ?_⟩
      have := s4.length_le
      have := s3.length_le
      simp at this ⊢
      omega

theorem tokLoop_fuel {cfg : LexCfg V} (ok : CharOk cfg) (n m : Nat) (cs : List Char) (p : Pos)
    (hn : cs.length < n) (hm : cs.length < m) : cfg.tokLoop n cs p = cfg.tokLoop m cs p := by
  induction n generalizing m cs p with
  | zero => omega
  | succ n ih =>
    cases m with
    | zero => omega
    | succ m =>
      cases cs with
      | nil => rfl
      | cons c cs =>
        simp only [LexCfg.tokLoop]
        cases h : cfg.nextToken (c :: cs) p with
        | err e => rfl
        | hang => rfl
        | ok r =>
          have := (nextToken_progress ok h).2
          simp only [Out.ok_bind]
          rw [ih m _ _ (by omega) (by omega)]

theorem tokLoop_pos (cfg : LexCfg V) (n : Nat) (cs : List Char) (p p' : Pos) :
    (cfg.tokLoop n cs p).map (List.map Prod.fst) = (cfg.tokLoop n cs p').map (List.map Prod.fst) := by
  induction n generalizing cs p p' with
  | zero => rfl
  | succ n ih =>
    cases cs with
    | nil => rfl
    | cons c cs =>
      simp only [LexCfg.tokLoop]
      rw [Out.map_bind, Out.map_bind]
      refine Out.bind_congr_map (nextToken_pos cfg (c :: cs) p p') ?_
      rintro ⟨t, r, q⟩ ⟨t', r', q'⟩ e
      simp only [noPos, Prod.mk.injEq] at e
      obtain ⟨rfl, rfl⟩ := e
      have h := ih r q q'
      simp only
      rw [Out.map_bind, Out.map_bind]
      refine Out.bind_congr_map h ?_
      intro a b e
      simp [e]

/-- `next_token` without positions -/
def LexCfg.next (cfg : LexCfg V) (cs : List Char) : Out (Tok V × List Char) :=
  (cfg.nextToken cs ⟨1, 0⟩).map noPos

/-- tokens of a text, without positions, starting anywhere -/
def LexCfg.kindsFrom (cfg : LexCfg V) (cs : List Char) : Out (List (Tok V)) :=
  (cfg.tokLoop (cs.length + 1) cs ⟨1, 0⟩).map (List.map Prod.fst)

theorem next_eq (cfg : LexCfg V) (cs : List Char) (p : Pos) :
    (cfg.nextToken cs p).map noPos = cfg.next cs := nextToken_pos cfg cs p _

theorem kindsFrom_nil (cfg : LexCfg V) : cfg.kindsFrom [] = .ok [.eof] := rfl

theorem kindsFrom_cons {cfg : LexCfg V} (ok : CharOk cfg) {cs : List Char} (hne : cs ≠ []) :
    cfg.kindsFrom cs =
      cfg.next cs >>= fun r => cfg.kindsFrom r.2 >>= fun ts => .ok (r.1 :: ts) := by
  cases cs with
  | nil => exact absurd rfl hne
  | cons c cs =>
    simp only [LexCfg.kindsFrom, LexCfg.next, List.length_cons]
    rw [LexCfg.tokLoop]
    cases h : cfg.nextToken (c :: cs) ⟨1, 0⟩ with
    | err e => rfl
    | hang => rfl
    | ok r =>
      have hp := (nextToken_progress ok h).2
      simp only [List.length_cons] at hp
      simp only [Out.ok_bind, Out.map_ok, noPos]
      rw [tokLoop_fuel ok (cs.length + 1) (r.2.1.length + 1) r.2.1 r.2.2 (by omega) (by omega)]
      have := tokLoop_pos cfg (r.2.1.length + 1) r.2.1 r.2.2 ⟨1, 0⟩
      rw [Out.map_bind]
      cases h1 : cfg.tokLoop (r.2.1.length + 1) r.2.1 r.2.2 <;>
        cases h2 : cfg.tokLoop (r.2.1.length + 1) r.2.1 ⟨1, 0⟩ <;> rw [h1, h2] at this <;>
        simp at this ⊢
      · exact this
      · exact this

theorem kinds_eq (cfg : LexCfg V) {text : List Char} (hne : text ≠ []) :
    cfg.kinds text = cfg.kindsFrom text := by
  cases text with
  | nil => exact absurd rfl hne
  | cons c cs =>
    simp only [LexCfg.kinds, LexCfg.tokenize, LexCfg.kindsFrom]
    cases cfg.tokLoop ((c :: cs).length + 1) (c :: cs) ⟨1, 0⟩ <;> rfl

/-! ### `next` through layout -/

theorem next_unfold (cfg : LexCfg V) (cs : List Char) (p : Pos) : cfg.next cs =
    match (cfg.skipWs cs p).1 with
    | [] => .ok (.eof, [])
    | c :: r => cfg.skipLines (r.length + 2) (c :: r) p >>= fun s1 =>
        cfg.skipBlocks (s1.1.length + 1) s1.1 p >>= fun s2 => (cfg.lexOne s2.1 p).map noPos := by
  rw [← next_eq cfg cs p]
  unfold LexCfg.nextToken
  simp only
  cases h : (cfg.skipWs cs p).1 with
  | nil => rfl
  | cons c r =>
    simp only
    rw [Out.map_bind]
    refine Out.bind_congr_map (skipLines_pos _ _ _ _ _) ?_
    rintro ⟨a, pa⟩ ⟨b, pb⟩ e
    simp only at e
    subst e
    rw [Out.map_bind]
    refine Out.bind_congr_map (skipBlocks_pos _ _ _ _ _) ?_
    rintro ⟨a, pa⟩ ⟨b, pb⟩ e
    simp only at e
    subst e
    exact lexOne_pos _ _ _ _

end Pynare
