import Verif.Spec.Lexer
/-! Helper lemmas about the lexer. -/

namespace Pynare

variable {V : Type}

namespace Out
variable {α β γ : Type}

@[simp] theorem ok_bind (a : α) (f : α → Out β) : (Out.ok a >>= f) = f a := rfl
@[simp] theorem err_bind (e : Err) (f : α → Out β) : ((Out.err e : Out α) >>= f) = .err e := rfl
@[simp] theorem hang_bind (f : α → Out β) : ((Out.hang : Out α) >>= f) = .hang := rfl

/-- apply a function to the result -/
def map (f : α → β) : Out α → Out β
  | .ok a => .ok (f a)
  | .err e => .err e
  | .hang => .hang

@[simp] theorem map_ok (f : α → β) (a : α) : (Out.ok a).map f = .ok (f a) := rfl
@[simp] theorem map_err (f : α → β) (e : Err) : (Out.err e).map f = .err e := rfl
@[simp] theorem map_hang (f : α → β) : (Out.hang).map f = .hang := rfl

theorem bind_ok_iff {m : Out α} {f : α → Out β} {b : β} :
    (m >>= f) = .ok b ↔ ∃ a, m = .ok a ∧ f a = .ok b := by
  cases m <;> simp

theorem bind_hang_iff {m : Out α} {f : α → Out β} :
    (m >>= f) = .hang ↔ m = .hang ∨ ∃ a, m = .ok a ∧ f a = .hang := by
  cases m <;> simp

theorem map_eq_ok {m : Out α} {f : α → β} {b : β} :
    m.map f = .ok b ↔ ∃ a, m = .ok a ∧ f a = b := by
  cases m <;> simp

theorem map_eq_hang {m : Out α} {f : α → β} : m.map f = .hang ↔ m = .hang := by
  cases m <;> simp

theorem bind_congr_map {m m' : Out α} {f : α → γ} {g g' : α → Out β}
    (h : m.map f = m'.map f) (hg : ∀ a b, f a = f b → g a = g' b) : (m >>= g) = (m' >>= g') := by
  cases m <;> cases m' <;> simp at h ⊢
  · exact hg _ _ h
  · exact h

theorem map_map (m : Out α) (f : α → β) (g : β → γ) : (m.map f).map g = m.map (g ∘ f) := by
  cases m <;> rfl

theorem map_bind (m : Out α) (f : α → Out β) (g : β → γ) :
    (m >>= f).map g = m >>= fun a => (f a).map g := by
  cases m <;> rfl

end Out

/-! ### Consuming characters -/

theorem spanAdv_append (f : Char → Bool) :
    ∀ (w r : List Char) (p : Pos), (∀ c ∈ w, f c = true) → (∀ c, r.head? = some c → f c = false) →
      ∃ p', spanAdv f (w ++ r) p = (w, r, p') := by
  intro w
  induction w with
  | nil =>
    intro r p _ h
    cases r with
    | nil => exact ⟨p, rfl⟩
    | cons c r => exact ⟨p, by simp [spanAdv, h c rfl]⟩
  | cons c w ih =>
    intro r p hw h
    obtain ⟨p', hp⟩ := ih r (p.over c) (fun x hx => hw x (by simp [hx])) h
    exact ⟨p', by simp [spanAdv, hw c (by simp), hp]⟩

theorem spanAdv_decomp (f : Char → Bool) :
    ∀ (cs : List Char) (p : Pos), (spanAdv f cs p).1 ++ (spanAdv f cs p).2.1 = cs ∧
      (∀ c ∈ (spanAdv f cs p).1, f c = true) ∧
      (∀ c, (spanAdv f cs p).2.1.head? = some c → f c = false) := by
  intro cs
  induction cs with
  | nil => intro p; simp [spanAdv]
  | cons c cs ih =>
    intro p
    simp only [spanAdv]
    by_cases h : f c = true
    · simp only [h, if_true]
      obtain ⟨h1, h2, h3⟩ := ih (p.over c)
      exact ⟨by simp [h1], by intro x hx; rcases List.mem_cons.mp hx with rfl | hx; exact h; exact h2 x hx, h3⟩
    · simp only [h]
      simpa using h

theorem spanAdv_pos (f : Char → Bool) :
    ∀ (cs : List Char) (p p' : Pos), (spanAdv f cs p).1 = (spanAdv f cs p').1 ∧
      (spanAdv f cs p).2.1 = (spanAdv f cs p').2.1 := by
  intro cs
  induction cs with
  | nil => intro p p'; simp [spanAdv]
  | cons c cs ih =>
    intro p p'
    simp only [spanAdv]
    by_cases h : f c = true
    · simp only [h, if_true]
      obtain ⟨h1, h2⟩ := ih (p.over c) (p'.over c)
      exact ⟨by rw [h1], h2⟩
    · simp [h]

theorem skipWs_append (cfg : LexCfg V) (w r : List Char) (p : Pos)
    (hw : ∀ c ∈ w, cfg.isSpace c = true) :
    ∃ p', cfg.skipWs (w ++ r) p = cfg.skipWs r p' := by
  induction w generalizing p with
  | nil => exact ⟨p, rfl⟩
  | cons c w ih =>
    obtain ⟨p', h⟩ := ih (p.over c) (fun x hx => hw x (by simp [hx]))
    refine ⟨p', ?_⟩
    rw [← h]
    simp [LexCfg.skipWs, spanAdv, hw c (by simp)]

theorem skipWs_of_head (cfg : LexCfg V) (r : List Char) (p : Pos)
    (h : ∀ c, r.head? = some c → cfg.isSpace c = false) : cfg.skipWs r p = (r, p) := by
  cases r with
  | nil => rfl
  | cons c r => simp [LexCfg.skipWs, spanAdv, h c rfl]

theorem skipWs_pos (cfg : LexCfg V) (cs : List Char) (p p' : Pos) :
    (cfg.skipWs cs p).1 = (cfg.skipWs cs p').1 := (spanAdv_pos _ cs p p').2

theorem skipWs_suffix (cfg : LexCfg V) (cs : List Char) (p : Pos) :
    ∃ w, cs = w ++ (cfg.skipWs cs p).1 ∧ ∀ c ∈ w, cfg.isSpace c = true := by
  obtain ⟨h1, h2, _⟩ := spanAdv_decomp cfg.isSpace cs p
  exact ⟨_, h1.symm, h2⟩

theorem skipWs_head (cfg : LexCfg V) (cs : List Char) (p : Pos) :
    ∀ c, (cfg.skipWs cs p).1.head? = some c → cfg.isSpace c = false :=
  (spanAdv_decomp cfg.isSpace cs p).2.2

theorem skipWs_le (cfg : LexCfg V) (cs : List Char) (p : Pos) :
    (cfg.skipWs cs p).1.length ≤ cs.length := by
  obtain ⟨w, h, _⟩ := skipWs_suffix cfg cs p
  conv => rhs; rw [h]
  simp

theorem skipLineLoop_some : ∀ (cs : List Char) (p : Pos) (cs' : List Char) (p' : Pos),
    skipLineLoop cs p = some (cs', p') → ∃ w r, cs = w ++ '\n' :: r ∧ cs' = '\n' :: r ∧ '\n' ∉ w := by
  intro cs
  induction cs with
  | nil => intro p cs' p' h; cases h
  | cons c cs ih =>
    intro p cs' p' h
    simp only [skipLineLoop] at h
    by_cases e : c = '\n'
    · subst e
      simp at h
      exact ⟨[], cs, rfl, h.1.symm, by simp⟩
    · simp only [e, if_false] at h
      obtain ⟨w, r, h1, h2, h3⟩ := ih _ _ _ h
      exact ⟨c :: w, r, by rw [h1]; rfl, h2, by simp [Ne.symm e, h3]⟩

theorem skipLineLoop_append : ∀ (w r : List Char) (p : Pos), '\n' ∉ w →
    ∃ p', skipLineLoop (w ++ '\n' :: r) p = some ('\n' :: r, p') := by
  intro w
  induction w with
  | nil => intro r p _; exact ⟨p, by simp [skipLineLoop]⟩
  | cons c w ih =>
    intro r p h
    have hc : c ≠ '\n' := fun e => h (by simp [e])
    obtain ⟨p', hp⟩ := ih r (p.over c) (fun hh => h (by simp [hh]))
    exact ⟨p', by simp [skipLineLoop, hc, hp]⟩

theorem skipLineLoop_none (cs : List Char) (p : Pos) :
    skipLineLoop cs p = none ↔ '\n' ∉ cs := by
  induction cs generalizing p with
  | nil => simp [skipLineLoop]
  | cons c cs ih =>
    simp only [skipLineLoop]
    by_cases e : c = '\n'
    · simp [e]
    · simp [e, ih, Ne.symm e]

theorem skipLineLoop_pos (cs : List Char) (p p' : Pos) :
    (skipLineLoop cs p).map Prod.fst = (skipLineLoop cs p').map Prod.fst := by
  induction cs generalizing p p' with
  | nil => rfl
  | cons c cs ih =>
    simp only [skipLineLoop]
    by_cases e : c = '\n'
    · simp [e]
    · simp only [e, if_false]; exact ih _ _

/-- The `while` loop of `skip_singleline_comment` and its summary agree: it exits exactly as
`skipLineLoop` says and never exits when that is `none`. -/
theorem skipLineLoop_exact (cs : List Char) (p : Pos) (t : List Char × Pos) :
    skipLineLoop cs p = some t ↔
      WhileTo (fun s : List Char × Pos => s.1.head? ≠ some '\n')
        (fun s => (s.1.tail, match s.1 with
          | [] => ⟨s.2.line, s.2.col + 1⟩
          | c :: _ => s.2.over c)) (cs, p) t := by
  constructor
  · intro h
    induction cs generalizing p with
    | nil => cases h
    | cons c cs ih =>
      simp only [skipLineLoop] at h
      by_cases e : c = '\n'
      · simp [e] at h
        rw [e, ← h]
        exact .stop (by simp)
      · simp only [e, if_false] at h
        exact .step (by simpa using e) (ih _ h)
  · intro h
    generalize hs : (cs, p) = s at h
    induction h generalizing cs p with
    | @stop s h =>
      subst hs
      simp only [ne_eq, Decidable.not_not] at h
      cases cs with
      | nil => cases h
      | cons c cs => simp at h; simp [skipLineLoop, h]
    | @step s t h _ ih =>
      subst hs
      cases cs with
      | nil =>
        exfalso
        have := ih [] ⟨p.line, p.col + 1⟩ rfl
        cases this
      | cons c cs =>
        simp at h
        simp only [skipLineLoop, h, if_false]
        exact ih cs _ rfl

theorem skipBlockLoop_pos (cs : List Char) (p p' : Pos) :
    (skipBlockLoop cs p).map Prod.fst = (skipBlockLoop cs p').map Prod.fst := by
  induction cs generalizing p p' with
  | nil => rfl
  | cons c cs ih =>
    simp only [skipBlockLoop]
    split
    · exact ih _ _
    · rfl

theorem skipBlockLoop_le (cs : List Char) (p : Pos) (s : List Char × Pos)
    (h : skipBlockLoop cs p = some s) : ∃ w, cs = w ++ s.1 := by
  induction cs generalizing p with
  | nil => cases h
  | cons c cs ih =>
    simp only [skipBlockLoop] at h
    split at h
    · obtain ⟨w, hw⟩ := ih _ h
      exact ⟨c :: w, by rw [hw]; rfl⟩
    · cases h; exact ⟨[], rfl⟩

/-- The `while` loop of `skip_multiline_comment` and its summary agree. -/
theorem skipBlockLoop_exact (cs : List Char) (p : Pos) (t : List Char × Pos) :
    skipBlockLoop cs p = some t ↔
      WhileTo (fun s : List Char × Pos => s.1.head? ≠ some '*' ∧ s.1[1]? ≠ some '/')
        (fun s => (s.1.tail, match s.1 with
          | [] => ⟨s.2.line, s.2.col + 1⟩
          | c :: _ => s.2.over c)) (cs, p) t := by
  constructor
  · intro h
    induction cs generalizing p with
    | nil => cases h
    | cons c cs ih =>
      simp only [skipBlockLoop] at h
      split at h
      · rename_i hc
        refine .step ⟨by simpa using hc.1, ?_⟩ (ih _ h)
        have := hc.2
        simpa [List.head?_eq_getElem?] using this
      · rename_i hc
        cases h
        refine .stop ?_
        intro hh
        apply hc
        refine ⟨by simpa using hh.1, ?_⟩
        have := hh.2
        simpa [List.head?_eq_getElem?] using this
  · intro h
    generalize hs : (cs, p) = s at h
    induction h generalizing cs p with
    | @stop s h =>
      subst hs
      cases cs with
      | nil => simp at h
      | cons c cs =>
        simp only [skipBlockLoop]
        rw [if_neg]
        intro hc
        apply h
        refine ⟨by simpa using hc.1, ?_⟩
        have := hc.2
        simpa [List.head?_eq_getElem?] using this
    | @step s t h _ ih =>
      subst hs
      cases cs with
      | nil =>
        exfalso
        have := ih [] ⟨p.line, p.col + 1⟩ rfl
        cases this
      | cons c cs =>
        simp only [skipBlockLoop]
        rw [if_pos]
        · exact ih cs _ rfl
        · refine ⟨by simpa using h.1, ?_⟩
          have := h.2
          simpa [List.head?_eq_getElem?] using this

/-- no position of a block comment body at which the loop would stop -/
def NoStop : List Char → Prop
  | [] => True
  | c :: cs => c ≠ '*' ∧ cs.head? ≠ some '/' ∧ NoStop cs

theorem skipBlockLoop_none (cs : List Char) (p : Pos) :
    skipBlockLoop cs p = none ↔ NoStop cs := by
  induction cs generalizing p with
  | nil => simp [skipBlockLoop, NoStop]
  | cons c cs ih =>
    simp only [skipBlockLoop, NoStop]
    split
    · rename_i h; rw [ih]; exact ⟨fun x => ⟨h.1, h.2, x⟩, fun x => x.2.2⟩
    · rename_i h
      simp only [reduceCtorEq, false_iff]
      intro x; exact h ⟨x.1, x.2.1⟩

theorem skipBlockLoop_body : ∀ (body r : List Char) (p : Pos), BlockBody body →
    ∃ p', skipBlockLoop (body ++ '*' :: '/' :: r) p = some ('*' :: '/' :: r, p') := by
  intro body
  induction body with
  | nil => intro r p _; exact ⟨p, by simp [skipBlockLoop]⟩
  | cons c body ih =>
    intro r p h
    obtain ⟨h1, h2⟩ := h
    have hc : c ≠ '*' := fun e => h1 (by simp [e])
    have hb : '/' ∉ body := h2
    have hh : (body ++ '*' :: '/' :: r).head? ≠ some '/' := by
      cases body with
      | nil => simp
      | cons d body => simp; intro e; exact hb (by simp [e])
    obtain ⟨p', hp⟩ := ih r (p.over c) ⟨fun x => h1 (by simp [x]), fun x => hb (List.mem_of_mem_tail x)⟩
    refine ⟨p', ?_⟩
    rw [← hp]
    show (if c ≠ '*' ∧ (body ++ '*' :: '/' :: r).head? ≠ some '/' then _ else _) = _
    rw [if_pos ⟨hc, hh⟩]
    rfl

/-! ### Independence of positions -/

/-- forget the position -/
def noPos {α : Type} (x : α × List Char × Pos) : α × List Char := (x.1, x.2.1)

theorem skipLine_pos (cfg : LexCfg V) (cs : List Char) (p p' : Pos) :
    (cfg.skipLine cs p).map Prod.fst = (cfg.skipLine cs p').map Prod.fst := by
  have h := skipLineLoop_pos cs p p'
  unfold LexCfg.skipLine
  cases h1 : skipLineLoop cs p <;> cases h2 : skipLineLoop cs p' <;> rw [h1, h2] at h <;>
    simp at h ⊢
  rw [h]; exact skipWs_pos _ _ _ _

theorem advance2_pos (cs : List Char) (p p' : Pos) : (advance2 cs p).1 = (advance2 cs p').1 := by
  cases cs <;> rfl

theorem skipBlock_pos (cfg : LexCfg V) (cs : List Char) (p p' : Pos) :
    (cfg.skipBlock cs p).map Prod.fst = (cfg.skipBlock cs p').map Prod.fst := by
  unfold LexCfg.skipBlock
  simp only
  rw [advance2_pos cs p p']
  have h := skipBlockLoop_pos (advance2 cs p').1 (advance2 cs p).2 (advance2 cs p').2
  cases h1 : skipBlockLoop (advance2 cs p').1 (advance2 cs p).2 <;>
    cases h2 : skipBlockLoop (advance2 cs p').1 (advance2 cs p').2 <;> rw [h1, h2] at h <;>
    simp at h ⊢
  rw [h, advance2_pos _ _ (Prod.snd _)]; exact skipWs_pos _ _ _ _

theorem skipLines_pos (cfg : LexCfg V) (n : Nat) (cs : List Char) (p p' : Pos) :
    (cfg.skipLines n cs p).map Prod.fst = (cfg.skipLines n cs p').map Prod.fst := by
  induction n generalizing cs p p' with
  | zero => rfl
  | succ n ih =>
    simp only [LexCfg.skipLines]
    split
    · have h := skipLine_pos cfg cs p p'
      cases h1 : cfg.skipLine cs p <;> cases h2 : cfg.skipLine cs p' <;> rw [h1, h2] at h <;>
        simp at h ⊢
      · rw [h]; exact ih _ _ _
      · exact h
    · rfl

theorem skipBlocks_pos (cfg : LexCfg V) (n : Nat) (cs : List Char) (p p' : Pos) :
    (cfg.skipBlocks n cs p).map Prod.fst = (cfg.skipBlocks n cs p').map Prod.fst := by
  induction n generalizing cs p p' with
  | zero => rfl
  | succ n ih =>
    simp only [LexCfg.skipBlocks]
    split
    · have h := skipBlock_pos cfg cs p p'
      cases h1 : cfg.skipBlock cs p <;> cases h2 : cfg.skipBlock cs p' <;> rw [h1, h2] at h <;>
        simp at h ⊢
      · rw [h]; exact ih _ _ _
      · exact h
    · rfl

theorem lexStrBody_pos (q : Char) (cs : List Char) (p p' : Pos) :
    (lexStrBody q cs p).map noPos = (lexStrBody q cs p').map noPos := by
  induction cs generalizing p p' with
  | nil => rfl
  | cons c cs ih =>
    simp only [lexStrBody]
    split
    · rfl
    · have h := ih (p.over c) (p'.over c)
      cases h1 : lexStrBody q cs (p.over c) <;> cases h2 : lexStrBody q cs (p'.over c) <;>
        rw [h1, h2] at h <;> simp [noPos] at h ⊢
      · exact ⟨h.1, h.2⟩
      · exact h

theorem lexId_pos (cfg : LexCfg V) (cs : List Char) (p p' : Pos) :
    noPos (cfg.lexId cs p) = noPos (cfg.lexId cs p') := by
  obtain ⟨h1, h2⟩ := spanAdv_pos cfg.varChar cs p p'
  simp [noPos, LexCfg.lexId, h1, h2]

theorem lexNum_pos (cfg : LexCfg V) (cs : List Char) (p p' : Pos) :
    (cfg.lexNum cs p).map noPos = (cfg.lexNum cs p').map noPos := by
  obtain ⟨h1, h2⟩ := spanAdv_pos cfg.numChar cs p p'
  simp only [LexCfg.lexNum, h1]
  split <;> simp [noPos, h2]

theorem lexOne_pos (cfg : LexCfg V) (cs : List Char) (p p' : Pos) :
    (cfg.lexOne cs p).map noPos = (cfg.lexOne cs p').map noPos := by
  cases cs with
  | nil => rfl
  | cons c cs =>
    simp only [LexCfg.lexOne]
    split
    · simp only [Out.map_ok]; rw [lexId_pos]
    split
    · exact lexNum_pos _ _ _ _
    split
    · have h := lexStrBody_pos c cs (p.over c) (p'.over c)
      cases h1 : lexStrBody c cs (p.over c) <;> cases h2 : lexStrBody c cs (p'.over c) <;>
        rw [h1, h2] at h <;> simp [noPos] at h ⊢
      · exact ⟨by rw [h.1], h.2⟩
      · exact h
    split <;> rfl

theorem nextToken_pos (cfg : LexCfg V) (cs : List Char) (p p' : Pos) :
    (cfg.nextToken cs p).map noPos = (cfg.nextToken cs p').map noPos := by
  unfold LexCfg.nextToken
  have hw := skipWs_pos cfg cs p p'
  simp only
  rw [hw]
  cases h : (cfg.skipWs cs p').1 with
  | nil => rfl
  | cons c r =>
    simp only
    rw [Out.map_bind, Out.map_bind]
    refine Out.bind_congr_map (skipLines_pos _ _ _ _ _) ?_
    rintro ⟨a, pa⟩ ⟨b, pb⟩ e
    simp only at e
    subst e
    rw [Out.map_bind, Out.map_bind]
    refine Out.bind_congr_map (skipBlocks_pos _ _ _ _ _) ?_
    rintro ⟨a, pa⟩ ⟨b, pb⟩ e
    simp only at e
    subst e
    exact lexOne_pos _ _ _ _

end Pynare
