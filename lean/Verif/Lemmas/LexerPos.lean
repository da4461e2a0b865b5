import Verif.Lemmas.LexerText
/-! Source positions, and the two spellings of the exponent. -/

namespace Pynare

variable {V : Type}

theorem posAfter_snoc (w : List Char) (c : Char) : posAfter (w ++ [c]) = (posAfter w).over c := by
  unfold posAfter Pos.over
  by_cases h : c = '\n'
  · subst h; simp [List.count_append]; omega
  · simp [List.count_append, h]

theorem posAfter_two (w : List Char) (c d : Char) (hc : c ≠ '\n') (hd : d ≠ '\n') :
    posAfter (w ++ [c, d]) = (posAfter w).over c 2 := by
  have : w ++ [c, d] = (w ++ [c]) ++ [d] := by simp
  rw [this, posAfter_snoc, posAfter_snoc]
  simp [Pos.over, hc, hd]

theorem posAfter_nil : posAfter [] = ⟨1, 0⟩ := rfl

/-- `Tracks pre cs p cs' p'`: going from `cs` to `cs'` and from `p` to `p'` keeps the position
right -/
def Tracks (pre cs cs' : List Char) (p' : Pos) : Prop :=
  ∃ w, cs = w ++ cs' ∧ p' = posAfter (pre ++ w)

theorem spanAdv_tracks (f : Char → Bool) (cs pre : List Char) :
    (spanAdv f cs (posAfter pre)).2.2 = posAfter (pre ++ (spanAdv f cs (posAfter pre)).1) := by
  induction cs generalizing pre with
  | nil => simp [spanAdv]
  | cons c cs ih =>
    simp only [spanAdv]
    split
    · have := ih (pre ++ [c])
      rw [posAfter_snoc] at this
      simp only [this]
      simp
    · simp

theorem skipWs_tracks (cfg : LexCfg V) (cs pre : List Char) :
    ∃ w, cs = w ++ (cfg.skipWs cs (posAfter pre)).1 ∧
      (cfg.skipWs cs (posAfter pre)).2 = posAfter (pre ++ w) :=
  ⟨_, (spanAdv_decomp cfg.isSpace cs (posAfter pre)).1.symm, spanAdv_tracks _ _ _⟩

theorem skipLineLoop_tracks (cs pre : List Char) (s : List Char × Pos)
    (h : skipLineLoop cs (posAfter pre) = some s) : ∃ w, cs = w ++ s.1 ∧ s.2 = posAfter (pre ++ w) := by
  induction cs generalizing pre with
  | nil => cases h
  | cons c cs ih =>
    simp only [skipLineLoop] at h
    split at h
    · cases h; exact ⟨[], rfl, by simp⟩
    · rw [← posAfter_snoc] at h
      obtain ⟨w, h1, h2⟩ := ih _ h
      exact ⟨c :: w, by rw [h1]; rfl, by rw [h2]; simp⟩

theorem skipBlockLoop_tracks (cs pre : List Char) (s : List Char × Pos)
    (h : skipBlockLoop cs (posAfter pre) = some s) : ∃ w, cs = w ++ s.1 ∧ s.2 = posAfter (pre ++ w) := by
  induction cs generalizing pre with
  | nil => cases h
  | cons c cs ih =>
    simp only [skipBlockLoop] at h
    split at h
    · rw [← posAfter_snoc] at h
      obtain ⟨w, h1, h2⟩ := ih _ h
      exact ⟨c :: w, by rw [h1]; rfl, by rw [h2]; simp⟩
    · cases h; exact ⟨[], rfl, by simp⟩

theorem skipLine_tracks (cfg : LexCfg V) (cs pre : List Char) (s : List Char × Pos)
    (h : cfg.skipLine cs (posAfter pre) = .ok s) : ∃ w, cs = w ++ s.1 ∧ s.2 = posAfter (pre ++ w) := by
  unfold LexCfg.skipLine at h
  cases h1 : skipLineLoop cs (posAfter pre) with
  | none => rw [h1] at h; cases h
  | some x =>
    rw [h1] at h
    cases h
    obtain ⟨w, e1, e2⟩ := skipLineLoop_tracks cs pre x h1
    obtain ⟨w', e3, e4⟩ := skipWs_tracks cfg x.1 (pre ++ w)
    rw [← e2] at e3 e4
    exact ⟨w ++ w', by rw [List.append_assoc, ← e3]; exact e1, by rw [e4]; simp⟩

theorem isBlock_inv {cfg : LexCfg V} {cs : List Char} (h : cfg.isBlock cs = true) :
    cfg.dynare = true ∧ ∃ r, cs = '/' :: '*' :: r := by
  cases cs with
  | nil => cases h
  | cons c cs =>
    simp only [LexCfg.isBlock, Bool.and_eq_true, beq_iff_eq] at h
    obtain ⟨hd, hc, hh⟩ : cfg.dynare = true ∧ c = '/' ∧ cs.head? = some '*' := by
      simp_all
    cases cs with
    | nil => cases hh
    | cons d cs =>
      simp at hh; subst hh; subst hc
      exact ⟨hd, cs, rfl⟩

theorem BlocksClosed.suffix {cfg : LexCfg V} {a b : List Char} (h : BlocksClosed cfg b)
    (hs : a <:+ b) : BlocksClosed cfg a := by
  obtain ⟨w, rfl⟩ := hs
  intro hd pre r e
  exact h hd (w ++ pre) r (by rw [e]; simp)

theorem skipBlock_tracks (cfg : LexCfg V) (body R pre : List Char) (hb : BlockBody body)
    (s : List Char × Pos)
    (h : cfg.skipBlock ('/' :: '*' :: (body ++ '*' :: '/' :: R)) (posAfter pre) = .ok s) :
    ∃ w, '/' :: '*' :: (body ++ '*' :: '/' :: R) = w ++ s.1 ∧ s.2 = posAfter (pre ++ w) := by
  unfold LexCfg.skipBlock at h
  rw [show advance2 ('/' :: '*' :: (body ++ '*' :: '/' :: R)) (posAfter pre) =
    (body ++ '*' :: '/' :: R, (posAfter pre).over '/' 2) from rfl] at h
  simp only at h
  rw [← posAfter_two pre '/' '*' (by decide) (by decide)] at h
  obtain ⟨p1, h1⟩ := skipBlockLoop_body body R (posAfter (pre ++ ['/', '*'])) hb
  rw [h1] at h
  simp only [List.drop_succ_cons, List.drop_zero, advance2] at h
  obtain ⟨w, e1, e2⟩ := skipBlockLoop_tracks _ _ _ h1
  simp only at e1 e2
  have e1' : w = body := by
    have := List.append_cancel_right e1
    exact this.symm
  subst e1'
  subst e2
  rw [← posAfter_two _ '*' '/' (by decide) (by decide)] at h
  cases h
  obtain ⟨w', e3, e4⟩ := skipWs_tracks cfg R (pre ++ ['/', '*'] ++ w ++ ['*', '/'])
  refine ⟨'/' :: '*' :: (w ++ '*' :: '/' :: w'), ?_, ?_⟩
  · conv => lhs; rw [e3]
    simp
  · rw [e4]; simp

theorem skipLines_tracks (cfg : LexCfg V) (n : Nat) (cs pre : List Char) (s : List Char × Pos)
    (h : cfg.skipLines n cs (posAfter pre) = .ok s) :
    ∃ w, cs = w ++ s.1 ∧ s.2 = posAfter (pre ++ w) := by
  induction n generalizing cs pre with
  | zero => cases h
  | succ n ih =>
    simp only [LexCfg.skipLines] at h
    split at h
    · obtain ⟨a, h1, h2⟩ := Out.bind_ok_iff.mp h
      obtain ⟨w, e1, e2⟩ := skipLine_tracks cfg cs pre a h1
      rw [e2] at h2
      obtain ⟨w', e3, e4⟩ := ih _ _ h2
      exact ⟨w ++ w', by rw [e1, e3]; simp, by rw [e4]; simp⟩
    · cases h; exact ⟨[], rfl, by simp⟩

theorem skipBlocks_tracks (cfg : LexCfg V) (n : Nat) (cs pre : List Char) (s : List Char × Pos)
    (hc : BlocksClosed cfg cs) (h : cfg.skipBlocks n cs (posAfter pre) = .ok s) :
    ∃ w, cs = w ++ s.1 ∧ s.2 = posAfter (pre ++ w) := by
  induction n generalizing cs pre with
  | zero => cases h
  | succ n ih =>
    simp only [LexCfg.skipBlocks] at h
    split at h
    · rename_i hl
      obtain ⟨a, h1, h2⟩ := Out.bind_ok_iff.mp h
      obtain ⟨body, R, e, hb⟩ : ∃ body R, cs = '/' :: '*' :: (body ++ '*' :: '/' :: R) ∧
          BlockBody body := by
        obtain ⟨hd, r, rfl⟩ := isBlock_inv hl
        obtain ⟨body, R, rfl, hb⟩ := hc hd [] r rfl
        exact ⟨body, R, rfl, hb⟩
      have hsuf := (skipBlock_spec cfg hl h1).1
      rw [e] at h1
      obtain ⟨w, e1, e2⟩ := skipBlock_tracks cfg body R pre hb a h1
      rw [e2] at h2
      obtain ⟨w', e3, e4⟩ := ih _ _ (hc.suffix hsuf) h2
      exact ⟨w ++ w', by rw [e, e1, e3]; simp, by rw [e4]; simp⟩
    · cases h; exact ⟨[], rfl, by simp⟩

theorem lexStrBody_tracks (q : Char) (cs pre : List Char) (r : List Char × List Char × Pos)
    (h : lexStrBody q cs (posAfter pre) = .ok r) :
    ∃ w, cs = w ++ r.2.1 ∧ r.2.2 = posAfter (pre ++ w) := by
  induction cs generalizing pre r with
  | nil => cases h
  | cons c cs ih =>
    simp only [lexStrBody] at h
    rw [← posAfter_snoc] at h
    split at h
    · cases h; exact ⟨[c], rfl, rfl⟩
    · obtain ⟨a, h1, h2⟩ := Out.bind_ok_iff.mp h
      cases h2
      obtain ⟨w, e1, e2⟩ := ih _ _ h1
      exact ⟨c :: w, by rw [e1]; rfl, by rw [e2]; simp⟩

theorem ite_some_inv {P : Prop} [Decidable P] {a : Sym} {k : Nat} {x : Option (Sym × Nat)}
    {s : Sym} {n : Nat} (h : (if P then some (a, k) else x) = some (s, n)) :
    (n = k ∧ P) ∨ x = some (s, n) := by
  by_cases hP : P
  · rw [if_pos hP] at h; cases h; exact Or.inl ⟨rfl, hP⟩
  · rw [if_neg hP] at h; exact Or.inr h

theorem symOf_inv {py : Bool} {c : Char} {next : Option Char} {s : Sym} {n : Nat}
    (h : symOf py c next = some (s, n)) :
    c ≠ '\n' ∧ (n = 1 ∨ (n = 2 ∧ ∃ d, next = some d ∧ d ≠ '\n' ∧ d ≠ '^')) := by
  have hc : c ≠ '\n' := by
    rintro rfl
    simp [symOf] at h
  refine ⟨hc, ?_⟩
  unfold symOf at h
  repeat
    rcases ite_some_inv h with hh | h
    · first
        | exact Or.inl hh.1
        | exact Or.inr ⟨hh.1, _, hh.2.2, by decide, by decide⟩
        | exact Or.inr ⟨hh.1, _, hh.2.2.2, by decide, by decide⟩
  cases h

theorem lexOne_tracks {cfg : LexCfg V} (cs pre : List Char)
    (r : Tok V × List Char × Pos) (h : cfg.lexOne cs (posAfter pre) = .ok r) :
    ∃ w, cs = w ++ r.2.1 ∧ r.2.2 = posAfter (pre ++ w) := by
  cases cs with
  | nil => cases h; exact ⟨[], rfl, by simp⟩
  | cons c cs =>
    simp only [LexCfg.lexOne] at h
    split at h
    · cases h
      exact ⟨_, (spanAdv_decomp cfg.varChar (c :: cs) (posAfter pre)).1.symm, spanAdv_tracks _ _ _⟩
    split at h
    · simp only [LexCfg.lexNum] at h
      split at h
      · cases h
        exact ⟨_, (spanAdv_decomp cfg.numChar (c :: cs) (posAfter pre)).1.symm, spanAdv_tracks _ _ _⟩
      · cases h
    split at h
    · obtain ⟨a, h1, h2⟩ := Out.bind_ok_iff.mp h
      cases h2
      rw [← posAfter_snoc] at h1
      obtain ⟨w, e1, e2⟩ := lexStrBody_tracks _ _ _ _ h1
      exact ⟨c :: w, by simp [← e1], by simp [e2]⟩
    split at h
    · rename_i s n hs
      cases h
      obtain ⟨hc, hn⟩ := symOf_inv hs
      rcases hn with rfl | ⟨rfl, d, hd, hdn, _⟩
      · exact ⟨[c], by simp, (posAfter_snoc pre c).symm⟩
      · cases cs with
        | nil => cases hd
        | cons d' cs =>
          simp at hd; subst hd
          exact ⟨[c, d'], by simp, (posAfter_two pre c d' hc hdn).symm⟩
    · cases h

theorem nextToken_tracks {cfg : LexCfg V} (cs pre : List Char) (hc : BlocksClosed cfg cs)
    (r : Tok V × List Char × Pos) (h : cfg.nextToken cs (posAfter pre) = .ok r) :
    ∃ w, cs = w ++ r.2.1 ∧ r.2.2 = posAfter (pre ++ w) := by
  unfold LexCfg.nextToken at h
  simp only at h
  obtain ⟨w, e1, e2⟩ := skipWs_tracks cfg cs pre
  split at h
  · rename_i h0
    cases h
    exact ⟨w, by rw [h0] at e1; exact e1, e2⟩
  · obtain ⟨a, h1, h2⟩ := Out.bind_ok_iff.mp h
    obtain ⟨b, h3, h4⟩ := Out.bind_ok_iff.mp h2
    rw [e2] at h1
    obtain ⟨w1, e3, e4⟩ := skipLines_tracks cfg _ _ _ _ h1
    have hsuf : a.1 <:+ cs := ⟨w ++ w1, by rw [List.append_assoc, ← e3, ← e1]⟩
    rw [e4] at h3
    obtain ⟨w2, e5, e6⟩ := skipBlocks_tracks cfg _ _ _ _ (hc.suffix hsuf) h3
    rw [e6] at h4
    obtain ⟨w3, e7, e8⟩ := lexOne_tracks _ _ _ h4
    refine ⟨w ++ w1 ++ w2 ++ w3, ?_, by rw [e8]; simp⟩
    conv => lhs; rw [e1, e3, e5, e7]
    simp

theorem tokLoop_tracks {cfg : LexCfg V} (text : List Char) (n : Nat) (cs pre : List Char)
    (ht : text = pre ++ cs) (hc : BlocksClosed cfg text) (ts : List (Tok V × Pos))
    (h : cfg.tokLoop n cs (posAfter pre) = .ok ts) :
    ∀ tp ∈ ts, ∃ a b, text = a ++ b ∧ tp.2 = posAfter a := by
  induction n generalizing cs pre ts with
  | zero => cases h
  | succ n ih =>
    cases cs with
    | nil =>
      cases h
      intro tp htp
      simp at htp
      subst htp
      exact ⟨pre, [], ht, rfl⟩
    | cons c cs =>
      simp only [LexCfg.tokLoop] at h
      obtain ⟨r, h1, h2⟩ := Out.bind_ok_iff.mp h
      obtain ⟨us, h3, h4⟩ := Out.bind_ok_iff.mp h2
      cases h4
      have hc' : BlocksClosed cfg (c :: cs) := hc.suffix ⟨pre, ht.symm⟩
      obtain ⟨w, e1, e2⟩ := nextToken_tracks (c :: cs) pre hc' r h1
      rw [e2] at h3
      have ht' : text = (pre ++ w) ++ r.2.1 := by rw [ht, e1]; simp
      intro tp htp
      rcases List.mem_cons.mp htp with rfl | htp
      · exact ⟨pre ++ w, r.2.1, ht', e2⟩
      · exact ih _ _ ht' us h3 tp htp

/-! ### Exponent spelling -/

theorem pyText_spanAdv (f : Char → Bool) (h1 : f '^' = false) (h2 : f '*' = false) :
    ∀ (cs : List Char) (p q : Pos), (spanAdv f (pyText cs) p).1 = (spanAdv f cs q).1 ∧
      (spanAdv f (pyText cs) p).2.1 = pyText (spanAdv f cs q).2.1 := by
  intro cs
  induction cs with
  | nil => intro p q; simp [spanAdv, pyText]
  | cons c cs ih =>
    intro p q
    by_cases e : c = '^'
    · subst e
      simp [pyText, spanAdv, h1, h2]
    · simp only [pyText, e, if_false, spanAdv]
      split
      · obtain ⟨a, b⟩ := ih (p.over c) (q.over c)
        simp [a, b]
      · simp [pyText, e]

theorem pyText_head (cs : List Char) (d : Char) (h1 : d ≠ '*') (h2 : d ≠ '^') :
    (pyText cs).head? = some d ↔ cs.head? = some d := by
  cases cs with
  | nil => simp [pyText]
  | cons c cs =>
    by_cases e : c = '^'
    · subst e; simp [pyText, Ne.symm h1, Ne.symm h2]
    · simp [pyText, e]

theorem pyText_drop (cs : List Char) (d : Char) (h2 : d ≠ '^') (h : cs.head? = some d) :
    (pyText cs).drop 1 = pyText (cs.drop 1) := by
  cases cs with
  | nil => rfl
  | cons c cs =>
    simp at h; subst h
    simp [pyText, h2]

theorem plainStars_suffix {a b : List Char} (h : a <:+ b) (hb : PlainStars b) : PlainStars a := by
  obtain ⟨w, rfl⟩ := h
  induction w with
  | nil => exact hb
  | cons c w ih => exact ih hb.2.2.2

theorem symOf_py (c : Char) (cs : List Char) (hc : c ≠ '^')
    (hs : c = '*' → cs.head? ≠ some '*' ∧ cs.head? ≠ some '^') :
    symOf true c (pyText cs).head? = symOf false c cs.head? := by
  by_cases e : c = '*'
  · subst e
    have : (pyText cs).head? ≠ some '*' := by
      cases cs with
      | nil => simp [pyText]
      | cons d cs =>
        have := hs rfl
        simp at this
        simp [pyText, this]
    simp [symOf, this]
  · have h1 := pyText_head cs '=' (by decide) (by decide)
    unfold symOf
    simp only [h1, hc, e, false_and, and_false, if_false]

theorem next_py {cfg : LexCfg V} (ok : CharOk cfg) (hd : cfg.dynare = false)
    (hp : cfg.pyExp = false) (cs : List Char) (hs : PlainStars cs) :
    LexCfg.next { cfg with pyExp := true } (pyText cs) =
      (cfg.next cs).map fun r => (r.1, pyText r.2) := by
  have hal : cfg.isAlnum '^' = false := ok.punct_not_alnum _ (by decide)
  have hal2 : cfg.isAlnum '*' = false := ok.punct_not_alnum _ (by decide)
  rw [next_unfold _ _ ⟨1, 0⟩, next_unfold cfg _ ⟨1, 0⟩]
  have hw := (pyText_spanAdv cfg.isSpace (ok.punct_not_space _ (by decide))
    (ok.punct_not_space _ (by decide)) cs ⟨1, 0⟩ ⟨1, 0⟩).2
  have hw' : (LexCfg.skipWs { cfg with pyExp := true } (pyText cs) ⟨1, 0⟩).1 =
    pyText (cfg.skipWs cs ⟨1, 0⟩).1 := hw
  rw [hw']
  have hsw := plainStars_suffix (skipWs_isSuffix cfg cs ⟨1, 0⟩) hs
  cases hx : (cfg.skipWs cs ⟨1, 0⟩).1 with
  | nil => rfl
  | cons c r =>
    rw [hx] at hsw
    have noL : ∀ (cfg' : LexCfg V), cfg'.dynare = false → ∀ n y p,
        cfg'.skipLines (n + 1) y p = .ok (y, p) := by
      intro cfg' h n y p
      cases y <;> simp [LexCfg.skipLines, LexCfg.isLine, h]
    have noB : ∀ (cfg' : LexCfg V), cfg'.dynare = false → ∀ n y p,
        cfg'.skipBlocks (n + 1) y p = .ok (y, p) := by
      intro cfg' h n y p
      cases y <;> simp [LexCfg.skipBlocks, LexCfg.isBlock, h]
    have key : ((LexCfg.lexOne { cfg with pyExp := true } (pyText (c :: r)) ⟨1, 0⟩).map noPos) =
        ((cfg.lexOne (c :: r) ⟨1, 0⟩).map noPos).map fun r => (r.1, pyText r.2) := by
      obtain ⟨hq1, hq2, hst, _⟩ := hsw
      have hq : ¬ (c = '\'' ∨ c = '"') := by simp [hq1, hq2]
      by_cases e : c = '^'
      · subst e
        have hb := begChar_false ok hal (by decide)
        have hn := numChar_false ok hal (by decide)
        have hb2 : LexCfg.begChar { cfg with pyExp := true } '*' = false :=
          begChar_false ok hal2 (by decide)
        have hn2 : LexCfg.numChar { cfg with pyExp := true } '*' = false :=
          numChar_false ok hal2 (by decide)
        simp only [pyText, if_true, LexCfg.lexOne, hb, hn, hb2, hn2, hq, hp, if_false,
          Bool.false_eq_true]
        simp [symOf, noPos]
      · have hpt : pyText (c :: r) = c :: pyText r := by simp [pyText, e]
        have hbb : LexCfg.begChar { cfg with pyExp := true } c = cfg.begChar c := rfl
        have hnn : LexCfg.numChar { cfg with pyExp := true } c = cfg.numChar c := rfl
        rw [hpt]
        simp only [LexCfg.lexOne, hbb, hnn, hq, if_false]
        split
        · have hv1 : cfg.varChar '^' = false := varChar_false_of_punct hal (by decide)
          have hv2 : cfg.varChar '*' = false := varChar_false_of_punct hal2 (by decide)
          obtain ⟨a, b⟩ := pyText_spanAdv cfg.varChar hv1 hv2 (c :: r) ⟨1, 0⟩ ⟨1, 0⟩
          rw [hpt] at a b
          have hvv : LexCfg.varChar { cfg with pyExp := true } = cfg.varChar := rfl
          simp only [Out.map_ok, LexCfg.lexId, noPos, hvv, a, b]
        split
        · have hv1 : cfg.numChar '^' = false := numChar_false ok hal (by decide)
          have hv2 : cfg.numChar '*' = false := numChar_false ok hal2 (by decide)
          obtain ⟨a, b⟩ := pyText_spanAdv cfg.numChar hv1 hv2 (c :: r) ⟨1, 0⟩ ⟨1, 0⟩
          rw [hpt] at a b
          have hvv : LexCfg.numChar { cfg with pyExp := true } = cfg.numChar := rfl
          simp only [LexCfg.lexNum, hvv, a]
          split
          · simp only [Out.map_ok, noPos, b]
          · rfl
        · rw [symOf_py c r e hst, hp]
          cases hsy : symOf false c r.head? with
          | none => rfl
          | some x =>
            obtain ⟨s, n⟩ := x
            simp only [Out.map_ok, noPos]
            rcases (symOf_inv hsy).2 with rfl | ⟨rfl, d, hd', _, hdne⟩
            · rfl
            · simp only [Nat.add_one_sub_one]
              rw [pyText_drop r d hdne hd']
    have hcons : ∃ d r', pyText (c :: r) = d :: r' := by
      by_cases e : c = '^' <;> simp [pyText, e]
    obtain ⟨d, r', hdr⟩ := hcons
    rw [hdr] at key ⊢
    simp only
    rw [noL cfg hd, noL { cfg with pyExp := true } hd]
    simp only [Out.ok_bind]
    rw [noB cfg hd, noB { cfg with pyExp := true } hd]
    simp only [Out.ok_bind]
    exact key

theorem pyText_ne_nil {cs : List Char} (h : cs ≠ []) : pyText cs ≠ [] := by
  cases cs with
  | nil => exact absurd rfl h
  | cons c cs => by_cases e : c = '^' <;> simp [pyText, e]

theorem kindsFrom_py {cfg : LexCfg V} (ok : CharOk cfg) (hd : cfg.dynare = false)
    (hp : cfg.pyExp = false) : ∀ (n : Nat) (cs : List Char), cs.length ≤ n → PlainStars cs →
    LexCfg.kindsFrom { cfg with pyExp := true } (pyText cs) = cfg.kindsFrom cs := by
  intro n
  have ok' : CharOk { cfg with pyExp := true } :=
    ⟨ok.space_nl, ok.space_blank, ok.alpha_alnum, ok.digit_alnum, ok.digit_not_alpha,
      ok.alnum_not_space, ok.punct_not_alnum, ok.punct_not_space⟩
  induction n with
  | zero =>
    intro cs h _
    have : cs = [] := List.length_eq_zero_iff.mp (by omega)
    subst this; rfl
  | succ n ih =>
    intro cs h hs
    by_cases hne : cs = []
    · subst hne; rfl
    · rw [kindsFrom_cons ok hne, kindsFrom_cons ok' (pyText_ne_nil hne), next_py ok hd hp cs hs]
      cases hn : cfg.next cs with
      | err e => rfl
      | hang => rfl
      | ok r =>
        simp only [Out.map_ok, Out.ok_bind]
        have : r.2 <:+ cs ∧ r.2.length < cs.length := by
          cases cs with
          | nil => exact absurd rfl hne
          | cons c cs =>
            unfold LexCfg.next at hn
            obtain ⟨a, h1, h2⟩ := Out.map_eq_ok.mp hn
            subst h2
            exact nextToken_progress ok h1
        rw [ih r.2 (by omega) (plainStars_suffix this.1 hs)]

/-! ### In Python mode the caret belongs to no token -/

theorem spanAdv_keeps (f : Char → Bool) (d : Char) (hf : f d = false) : ∀ (cs : List Char) (p : Pos),
    d ∈ cs → d ∈ (spanAdv f cs p).2.1 := by
  intro cs
  induction cs with
  | nil => intro p h; cases h
  | cons c cs ih =>
    intro p h
    unfold spanAdv
    split
    · rename_i hc
      rcases List.mem_cons.mp h with rfl | h
      · rw [hf] at hc; cases hc
      · exact ih _ h
    · exact h

theorem symOf_caret (next : Option Char) : symOf true '^' next = none := by
  simp [symOf]

theorem next_caret {cfg : LexCfg V} (ok : CharOk cfg) (hd : cfg.dynare = false) (hp : cfg.pyExp = true)
    {cs : List Char} (hq1 : '\'' ∉ cs) (hq2 : '"' ∉ cs) (hc : '^' ∈ cs) {r} (h : cfg.next cs = .ok r) : '^' ∈ r.2 := by
  have hal : cfg.isAlnum '^' = false := ok.punct_not_alnum _ (by decide)
  rw [next_unfold _ _ ⟨1, 0⟩] at h
  have hk : '^' ∈ (cfg.skipWs cs ⟨1, 0⟩).1 := spanAdv_keeps _ _ (ok.punct_not_space _ (by decide)) _ _ hc
  have hsuf := skipWs_isSuffix cfg cs ⟨1, 0⟩
  cases hx : (cfg.skipWs cs ⟨1, 0⟩).1 with
  | nil => rw [hx] at hk; cases hk
  | cons c t =>
    rw [hx] at h hk hsuf
    have noL : ∀ n y p, cfg.skipLines (n + 1) y p = .ok (y, p) := by
      intro n y p
      cases y <;> simp [LexCfg.skipLines, LexCfg.isLine, hd]
    have noB : ∀ n y p, cfg.skipBlocks (n + 1) y p = .ok (y, p) := by
      intro n y p
      cases y <;> simp [LexCfg.skipBlocks, LexCfg.isBlock, hd]
    simp only [noL, noB, Out.ok_bind] at h
    have hcq : ¬ (c = '\'' ∨ c = '"') := by
      have hm : c ∈ cs := hsuf.subset (by simp)
      rintro (rfl | rfl)
      · exact hq1 hm
      · exact hq2 hm
    simp only [LexCfg.lexOne, hcq, if_false] at h
    split at h
    · simp only [Out.map_ok, LexCfg.lexId, noPos] at h
      cases h
      exact spanAdv_keeps _ _ (varChar_false_of_punct hal (by decide)) _ _ hk
    · split at h
      · simp only [LexCfg.lexNum] at h
        split at h
        · simp only [Out.map_ok, noPos] at h
          cases h
          exact spanAdv_keeps _ _ (numChar_false ok hal (by decide)) _ _ hk
        · cases h
      · rw [hp] at h
        rcases List.mem_cons.mp hk with rfl | hk
        · rw [symOf_caret] at h; cases h
        · cases hsy : symOf true c t.head? with
          | none => rw [hsy] at h; cases h
          | some x =>
            obtain ⟨s, n⟩ := x
            rw [hsy] at h
            simp only [Out.map_ok, noPos] at h
            cases h
            rcases (symOf_inv hsy).2 with rfl | ⟨rfl, d, hd', _, hdne⟩
            · exact hk
            · cases t with
              | nil => cases hk
              | cons e t =>
                simp at hd'; subst hd'
                rcases List.mem_cons.mp hk with rfl | hk
                · exact absurd rfl hdne
                · exact hk

theorem kindsFrom_caret {cfg : LexCfg V} (ok : CharOk cfg) (hd : cfg.dynare = false) (hp : cfg.pyExp = true) :
    ∀ (n : Nat) (cs : List Char), cs.length ≤ n → '\'' ∉ cs → '"' ∉ cs → '^' ∈ cs → ∀ ts, cfg.kindsFrom cs ≠ .ok ts := by
  intro n
  induction n with
  | zero =>
    intro cs h _ _ hc
    have : cs = [] := List.length_eq_zero_iff.mp (by omega)
    subst this; cases hc
  | succ n ih =>
    intro cs h hq1 hq2 hc ts hts
    have hne : cs ≠ [] := by rintro rfl; cases hc
    rw [kindsFrom_cons ok hne] at hts
    obtain ⟨r, hn, hts⟩ := Out.bind_ok_iff.mp hts
    obtain ⟨us, hk, _⟩ := Out.bind_ok_iff.mp hts
    have hr := next_caret ok hd hp hq1 hq2 hc hn
    have hs : r.2 <:+ cs ∧ r.2.length < cs.length := by
      cases cs with
      | nil => exact absurd rfl hne
      | cons c cs =>
        unfold LexCfg.next at hn
        obtain ⟨a, h1, h2⟩ := Out.map_eq_ok.mp hn
        subst h2
        exact nextToken_progress ok h1
    exact ih r.2 (by omega) (fun h => hq1 (hs.1.subset h)) (fun h => hq2 (hs.1.subset h)) hr us hk

end Pynare
