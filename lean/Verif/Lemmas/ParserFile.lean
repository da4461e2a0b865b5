import Verif.Lemmas.ParserPrint
/-! Termination of the parser of model files. -/

namespace Pynare

variable {V : Type}

/-- `r` is what remains of `ts` after some tokens of expressions -/
def Ate (ts r : List (Tok V)) : Prop := ∃ us, ts = us ++ r ∧ ∀ t ∈ us, t.inExpr = true

theorem Ate.refl (ts : List (Tok V)) : Ate ts ts := ⟨[], rfl, by simp⟩

theorem Ate.trans {a b c : List (Tok V)} (h : Ate a b) (h' : Ate b c) : Ate a c := by
  obtain ⟨us, rfl, h1⟩ := h
  obtain ⟨vs, rfl, h2⟩ := h'
  refine ⟨us ++ vs, by simp, ?_⟩
  intro t ht
  rcases List.mem_append.mp ht with ht | ht
  · exact h1 _ ht
  · exact h2 _ ht

theorem Ate.adv {t : Tok V} {ts r : List (Tok V)} (h : adv (t :: ts) = .ok r) (ht : t.inExpr = true) :
    Ate (t :: ts) r := by
  obtain ⟨t', e, _⟩ := adv_suffix h
  cases e
  exact ⟨[t], rfl, by simpa using ht⟩

theorem Ate.eatSym {s : Sym} {ts r : List (Tok V)} (h : eatSym s ts = .ok r)
    (ht : (Tok.sym s : Tok V).inExpr = true) : Ate ts r := by
  obtain ⟨e, _⟩ := eatSym_inv h
  exact ⟨[.sym s], e, by simpa using ht⟩

theorem parser_ate (pc : PCfg V) (m : Bool) (n : Nat) :
    (∀ ts r, pAtom pc m n ts = .ok r → Ate ts r.2) ∧
    (∀ node ts r, pCall pc m n node ts = .ok r → Ate ts r.2) ∧
    (∀ ts r, pExpo pc m n ts = .ok r → Ate ts r.2) ∧
    (∀ l ts r, pExpoLoop pc m n l ts = .ok r → Ate ts r.2) ∧
    (∀ ts r, pTerm pc m n ts = .ok r → Ate ts r.2) ∧
    (∀ l ts r, pTermLoop pc m n l ts = .ok r → Ate ts r.2) ∧
    (∀ ts r, pExpr pc m n ts = .ok r → Ate ts r.2) ∧
    (∀ l ts r, pExprLoop pc m n l ts = .ok r → Ate ts r.2) := by
  have hs : ∀ s u, Sym.sign s = some u → (Tok.sym s : Tok V).inExpr = true := by
    intro s u h; cases s <;> simp [Sym.sign] at h <;> rfl
  have hmm : ∀ s u, Sym.mulOp s = some u → (Tok.sym s : Tok V).inExpr = true := by
    intro s u h; cases s <;> simp [Sym.mulOp] at h <;> rfl
  have haa : ∀ s u, Sym.addOp s = some u → (Tok.sym s : Tok V).inExpr = true := by
    intro s u h; cases s <;> simp [Sym.addOp] at h <;> rfl
  induction n with
  | zero =>
    refine ⟨?_, ?_, ?_, ?_, ?_, ?_, ?_, ?_⟩ <;> intros <;> rename_i h <;> cases h
  | succ n ih =>
    obtain ⟨ha, hc, he, hel, ht, htl, hx, hxl⟩ := ih
    refine ⟨?_, ?_, ?_, ?_, ?_, ?_, ?_, ?_⟩
    · intro ts r h
      unfold pAtom at h
      split at h
      · cases h
      · split at h
        · rcases (maybePeriodVar_inv h).2 with ⟨x, _, e⟩ | ⟨x, s, d, v, k, hs', _, _, e⟩
          · exact ⟨[_], e, by simp [Tok.inExpr]⟩
          · refine ⟨[_, _, _, _, _], e, ?_⟩
            have := hs _ _ hs'
            intro t ht
            simp only [List.mem_cons, List.not_mem_nil, or_false] at ht
            rcases ht with rfl | rfl | rfl | rfl | rfl <;> first | rfl | exact this
        · obtain ⟨a, h1, h⟩ := Out.bind_ok_iff.mp h
          cases h
          exact Ate.adv h1 rfl
      · obtain ⟨a, h1, h⟩ := Out.bind_ok_iff.mp h
        cases h
        exact Ate.adv h1 rfl
      · split at h
        · rename_i e; subst e
          obtain ⟨a, h1, h⟩ := Out.bind_ok_iff.mp h
          obtain ⟨b, h2, h⟩ := Out.bind_ok_iff.mp h
          obtain ⟨c, h3, h⟩ := Out.bind_ok_iff.mp h
          cases h
          exact (Ate.adv h1 rfl).trans ((hx _ _ h2).trans (Ate.eatSym h3 rfl))
        · split at h
          · rename_i hu
            obtain ⟨a, h1, h⟩ := Out.bind_ok_iff.mp h
            obtain ⟨b, h2, h⟩ := Out.bind_ok_iff.mp h
            cases h
            exact (Ate.adv h1 (hs _ _ hu)).trans (ht _ b h2)
          · cases h
      · cases h
    · intro node ts r h
      unfold pCall at h
      split at h
      · obtain ⟨a, h1, h⟩ := Out.bind_ok_iff.mp h
        obtain ⟨b, h2, h⟩ := Out.bind_ok_iff.mp h
        obtain ⟨c, h3, h⟩ := Out.bind_ok_iff.mp h
        obtain ⟨d, h4, h⟩ := Out.bind_ok_iff.mp h
        exact (Ate.adv h1 rfl).trans ((Ate.eatSym h2 rfl).trans ((hx _ _ h3).trans
          ((Ate.eatSym h4 rfl).trans (hc _ _ _ h))))
      · split at h
        · cases h; exact Ate.refl _
        · exact ha _ _ h
    · intro ts r h
      unfold pExpo at h
      obtain ⟨a, h1, h⟩ := Out.bind_ok_iff.mp h
      exact (hc _ _ _ h1).trans (hel _ _ _ h)
    · intro l ts r h
      unfold pExpoLoop at h
      split at h
      · rename_i hp
        obtain ⟨ts', rfl⟩ := isSym_inv hp
        obtain ⟨a, h1, h⟩ := Out.bind_ok_iff.mp h
        obtain ⟨b, h2, h⟩ := Out.bind_ok_iff.mp h
        have h3 := (Ate.adv h1 rfl).trans (he _ _ h2)
        split at h
        · exact h3.trans (hel _ _ _ h)
        · cases h; exact h3
      · cases h; exact Ate.refl _
    · intro ts r h
      unfold pTerm at h
      obtain ⟨a, h1, h⟩ := Out.bind_ok_iff.mp h
      exact (he _ _ h1).trans (htl _ _ _ h)
    · intro l ts r h
      unfold pTermLoop at h
      split at h
      · rename_i hp
        obtain ⟨s, ts', rfl, hs'⟩ := headOp_inv hp
        obtain ⟨a, h1, h⟩ := Out.bind_ok_iff.mp h
        obtain ⟨b, h2, h⟩ := Out.bind_ok_iff.mp h
        exact (Ate.adv h1 (hmm _ _ hs')).trans ((he _ _ h2).trans (htl _ _ _ h))
      · cases h; exact Ate.refl _
    · intro ts r h
      unfold pExpr at h
      obtain ⟨a, h1, h⟩ := Out.bind_ok_iff.mp h
      exact (ht _ _ h1).trans (hxl _ _ _ h)
    · intro l ts r h
      unfold pExprLoop at h
      split at h
      · rename_i hp
        obtain ⟨s, ts', rfl, hs'⟩ := headOp_inv hp
        obtain ⟨a, h1, h⟩ := Out.bind_ok_iff.mp h
        obtain ⟨b, h2, h⟩ := Out.bind_ok_iff.mp h
        exact (Ate.adv h1 (haa _ _ hs')).trans ((ht _ _ h2).trans (hxl _ _ _ h))
      · cases h; exact Ate.refl _

theorem parseExpr_ate {pc : PCfg V} {ts : List (Tok V)} {r} (h : parseExpr pc ts = .ok r) : Ate ts r.2 :=
  (parser_ate pc false _).2.2.2.2.2.2.1 _ _ h
theorem parseExpr_length {pc : PCfg V} {ts : List (Tok V)} {r} (h : parseExpr pc ts = .ok r) :
    r.2.length < ts.length := (parser_length pc false _).2.2.2.2.2.2.1 _ _ h
theorem parseMExpr_length {pc : PCfg V} {ts : List (Tok V)} {r} (h : parseMExpr pc ts = .ok r) :
    r.2.length < ts.length := (parser_length pc true _).2.2.2.2.2.2.1 _ _ h
theorem parseExpr_not_hang (pc : PCfg V) (ts : List (Tok V)) : parseExpr pc ts ≠ .hang :=
  expr_not_hang pc false ts
theorem parseMExpr_not_hang (pc : PCfg V) (ts : List (Tok V)) : parseMExpr pc ts ≠ .hang :=
  expr_not_hang pc true ts

theorem eatId_length {ts : List (Tok V)} {r} (h : eatId ts = .ok r) : r.2.length + 1 = ts.length := by
  rw [(eatId_inv h).1]; rfl
theorem eatNum_length {ts : List (Tok V)} {r} (h : eatNum ts = .ok r) : r.2.length + 1 = ts.length := by
  rw [(eatNum_inv h).1]; rfl
theorem eatKw_length {k : String} {ts r : List (Tok V)} (h : eatKw k ts = .ok r) :
    r.length + 1 = ts.length := by
  rw [(eatKw_inv h).1]; rfl

/-! ### Preamble -/

theorem declNames_not_hang (n : Nat) : ∀ ts : List (Tok V), ts.length < n → declNames n ts ≠ .hang := by
  induction n with
  | zero => intro ts h; omega
  | succ n ih =>
    intro ts h
    unfold declNames
    split
    · refine Out.bind_not_hang (adv_not_hang _) fun a h1 => ?_
      refine Out.bind_not_hang (eatId_not_hang _) fun b h2 => ?_
      have := (adv_length h1).1
      have := eatId_length h2
      exact Out.bind_not_hang (ih _ (by omega)) fun c h3 => Out.ok_not_hang _
    · refine Out.bind_not_hang (eatId_not_hang _) fun b h2 => ?_
      have := eatId_length h2
      exact Out.bind_not_hang (ih _ (by omega)) fun c h3 => Out.ok_not_hang _
    · exact Out.ok_not_hang _

/-- the tokens eaten are the names and commas of a declaration -/
theorem declNames_inv (n : Nat) : ∀ (ts : List (Tok V)) r, declNames n ts = .ok r →
    ∃ us, ts = us ++ r.2 ∧ DeclNames us ∧ ∀ t ∈ us, ∀ k, t ≠ .kw k := by
  induction n with
  | zero => intro ts r h; cases h
  | succ n ih =>
    intro ts r h
    unfold declNames at h
    split at h
    · obtain ⟨a, h1, h⟩ := Out.bind_ok_iff.mp h
      obtain ⟨b, h2, h⟩ := Out.bind_ok_iff.mp h
      obtain ⟨c, h3, h⟩ := Out.bind_ok_iff.mp h
      cases h
      obtain ⟨us, e, hd, hk⟩ := ih _ _ h3
      obtain ⟨e2, _⟩ := eatId_inv h2
      obtain ⟨t, e1, _⟩ := adv_suffix h1
      cases e1
      refine ⟨.sym .comma :: .id b.1 :: us, by rw [e2, e]; rfl, .comma hd, ?_⟩
      intro t ht k
      simp only [List.mem_cons] at ht
      rcases ht with rfl | rfl | ht
      · simp
      · simp
      · exact hk _ ht k
    · obtain ⟨b, h2, h⟩ := Out.bind_ok_iff.mp h
      obtain ⟨c, h3, h⟩ := Out.bind_ok_iff.mp h
      cases h
      obtain ⟨us, e, hd, hk⟩ := ih _ _ h3
      obtain ⟨e2, _⟩ := eatId_inv h2
      refine ⟨.id b.1 :: us, by rw [e2, e]; rfl, .name hd, ?_⟩
      intro t ht k
      simp only [List.mem_cons] at ht
      rcases ht with rfl | ht
      · simp
      · exact hk _ ht k
    · cases h
      exact ⟨[], rfl, .nil, by simp⟩

theorem declNames_spec {us : List (Tok V)} (h : DeclNames us) (rest : List (Tok V)) :
    ∀ n, us.length < n → ∃ vs, declNames n (us ++ .sym .semi :: rest) = .ok (vs, .sym .semi :: rest) := by
  induction h with
  | nil =>
    intro n hn
    obtain ⟨k, rfl⟩ : ∃ k, n = k + 1 := ⟨n - 1, by omega⟩
    exact ⟨[], by unfold declNames; rfl⟩
  | @name x us _ ih =>
    intro n hn
    obtain ⟨k, rfl⟩ : ∃ k, n = k + 1 := ⟨n - 1, by omega⟩
    obtain ⟨vs, h⟩ := ih k (by simp at hn; omega)
    refine ⟨x :: vs, ?_⟩
    simp [declNames, eatId, adv_cons, h]
  | @comma x us _ ih =>
    intro n hn
    obtain ⟨k, rfl⟩ : ∃ k, n = k + 1 := ⟨n - 1, by omega⟩
    obtain ⟨vs, h⟩ := ih k (by simp at hn; omega)
    refine ⟨x :: vs, ?_⟩
    simp [declNames, eatId, adv_cons, h]

theorem typeDecl_not_hang (k : String) (ts : List (Tok V)) : typeDecl k ts ≠ .hang := by
  unfold typeDecl
  refine Out.bind_not_hang (adv_not_hang _) fun a h1 => ?_
  refine Out.bind_not_hang (declNames_not_hang _ _ (by omega)) fun b h2 => ?_
  exact Out.bind_not_hang (eatSym_not_hang _ _) fun c h3 => Out.ok_not_hang _

theorem assignment_not_hang (pc : PCfg V) (ts : List (Tok V)) : assignment pc ts ≠ .hang := by
  unfold assignment
  refine Out.bind_not_hang (eatId_not_hang _) fun a h1 => ?_
  refine Out.bind_not_hang (eatSym_not_hang _ _) fun b h2 => ?_
  refine Out.bind_not_hang (parseExpr_not_hang _ _) fun c h3 => ?_
  exact Out.bind_not_hang (eatSym_not_hang _ _) fun d h4 => Out.ok_not_hang _

/-- a successful declaration eats a statement ending in a semicolon, with one keyword in front -/
theorem typeDecl_inv {k : String} {ts : List (Tok V)} {r} (h : typeDecl k (.kw k :: ts) = .ok r) :
    r.2 ≠ [] ∧ ∃ us, ts = us ++ .sym .semi :: r.2 ∧ ∀ t ∈ us, ∀ k, t ≠ .kw k := by
  unfold typeDecl at h
  obtain ⟨a, h1, h⟩ := Out.bind_ok_iff.mp h
  obtain ⟨b, h2, h⟩ := Out.bind_ok_iff.mp h
  obtain ⟨c, h3, h⟩ := Out.bind_ok_iff.mp h
  cases h
  obtain ⟨t, e1, _⟩ := adv_suffix h1
  cases e1
  obtain ⟨us, e2, _, hk⟩ := declNames_inv _ _ _ h2
  obtain ⟨e3, hne⟩ := eatSym_inv h3
  exact ⟨hne, us, by rw [e2, e3], hk⟩

theorem assignment_inv {pc : PCfg V} {ts : List (Tok V)} {r} (h : assignment pc ts = .ok r) :
    r.2 ≠ [] ∧ ∃ us, ts = us ++ .sym .semi :: r.2 ∧ ∀ t ∈ us, ∀ k, t ≠ .kw k := by
  unfold assignment at h
  obtain ⟨a, h1, h⟩ := Out.bind_ok_iff.mp h
  obtain ⟨b, h2, h⟩ := Out.bind_ok_iff.mp h
  obtain ⟨c, h3, h⟩ := Out.bind_ok_iff.mp h
  obtain ⟨d, h4, h⟩ := Out.bind_ok_iff.mp h
  cases h
  obtain ⟨e1, _⟩ := eatId_inv h1
  obtain ⟨e2, _⟩ := eatSym_inv h2
  obtain ⟨us, e3, hu⟩ := parseExpr_ate h3
  obtain ⟨e4, hne⟩ := eatSym_inv h4
  refine ⟨hne, .id a.1 :: .sym .equals :: us, by rw [e1, e2, e3, e4]; rfl, ?_⟩
  intro t ht k
  simp only [List.mem_cons] at ht
  rcases ht with rfl | rfl | ht
  · simp
  · simp
  · intro e; subst e; exact absurd (hu _ ht) (by simp [Tok.inExpr])

theorem assignment_length {pc : PCfg V} {ts : List (Tok V)} {r} (h : assignment pc ts = .ok r) :
    r.2.length < ts.length := by
  obtain ⟨_, us, e, _⟩ := assignment_inv h
  rw [e]; simp; omega

theorem typeDecl_length {k : String} {ts : List (Tok V)} {r} (h : typeDecl k (.kw k :: ts) = .ok r) :
    r.2.length < ts.length := by
  obtain ⟨_, us, e, _⟩ := typeDecl_inv h
  rw [e]; simp; omega

/-- if every position before the model block where a statement could start holds a token that
starts one, the preamble is parsed in finite time -/
theorem preambleLoop_not_hang (pc : PCfg V) (all : List (Tok V))
    (hg : ∀ pre t post, all = pre ++ t :: post → .kw "model" ∉ pre →
      (pre = [] ∨ ∃ p, pre = p ++ [.sym .semi]) → StartsItem t) (n : Nat) :
    ∀ (done ts : List (Tok V)), all = done ++ ts → .kw "model" ∉ done →
      (done = [] ∨ ∃ p, done = p ++ [.sym .semi]) → ts.length < n →
      preambleLoop pc n ts ≠ .hang := by
  induction n with
  | zero => intro done ts _ _ _ h; omega
  | succ n ih =>
    intro done ts hall hm hd hn
    have next : ∀ (us r : List (Tok V)), ts = us ++ .sym .semi :: r → .kw "model" ∉ us →
        preambleLoop pc n r ≠ .hang := by
      intro us r e hu
      refine ih (done ++ us ++ [.sym .semi]) r (by rw [hall, e]; simp) ?_ (Or.inr ⟨_, rfl⟩) ?_
      · simp [hm, hu]
      · rw [e] at hn; simp at hn; omega
    unfold preambleLoop
    split
    · exact Out.err_not_hang _
    · rename_i k ts'
      split
      · exact Out.ok_not_hang _
      · rename_i hk
        split
        · refine Out.bind_not_hang (typeDecl_not_hang _ _) fun d h1 => ?_
          obtain ⟨_, us, e, hu⟩ := typeDecl_inv h1
          refine Out.bind_not_hang (next (.kw k :: us) d.2 (by rw [e]; rfl) ?_) fun _ _ => Out.ok_not_hang _
          simp only [List.mem_cons, Tok.kw.injEq, not_or]
          exact ⟨fun h => hk h.symm, fun h => hu _ h _ rfl⟩
        · rename_i hk'
          rcases hg done _ _ hall hm hd with ⟨x, e⟩ | e | ⟨k', hk'', e⟩
          · cases e
          · cases e; exact absurd rfl hk
          · cases e; exact absurd hk'' hk'
    · rename_i x ts'
      refine Out.bind_not_hang (assignment_not_hang _ _) fun d h1 => ?_
      obtain ⟨_, us, e, hu⟩ := assignment_inv h1
      exact Out.bind_not_hang (next us d.2 e (fun h => hu _ h _ rfl)) fun _ _ => Out.ok_not_hang _
    · rename_i t ts' h1 h2
      rcases hg done _ _ hall hm hd with ⟨x, e⟩ | e | ⟨k', hk'', e⟩
      · exact absurd e (h2 x)
      · exact absurd e (h1 _)
      · exact absurd e (h1 _)

/-- after well-formed statements, a token that starts none makes the loop run for ever -/
theorem preambleLoop_hang (pc : PCfg V) {items : List (List (Tok V))}
    (hi : ∀ i ∈ items, PreItem pc i) {t : Tok V} (ht : ¬ StartsItem t) (rest : List (Tok V)) :
    ∀ n, preambleLoop pc n (items.flatten ++ t :: rest) = .hang := by
  induction items with
  | nil =>
    intro n
    cases n with
    | zero => rfl
    | succ n =>
      simp only [List.flatten_nil, List.nil_append]
      unfold preambleLoop
      cases t with
      | kw k =>
        have h1 : k ≠ "model" := fun h => ht (Or.inr (Or.inl (by rw [h])))
        have h2 : k ∉ varTypes := fun h => ht (Or.inr (Or.inr ⟨k, h, rfl⟩))
        simp [h1, h2]
      | id x => exact absurd (Or.inl ⟨x, rfl⟩) ht
      | _ => rfl
  | cons i items ih =>
    intro n
    cases n with
    | zero => rfl
    | succ n =>
      have ih := ih (fun j hj => hi j (List.mem_cons_of_mem _ hj)) n
      have hne : items.flatten ++ t :: rest ≠ [] := by simp
      generalize hR : items.flatten ++ t :: rest = R at ih hne
      rw [List.flatten_cons, List.append_assoc, hR]
      cases hi i (by simp) with
      | @decl k us hk hd =>
        have hk1 : k ≠ "model" := by intro h; subst h; revert hk; decide
        have e : .kw k :: us ++ [.sym .semi] ++ R = .kw k :: (us ++ .sym .semi :: R) := by simp
        rw [e]
        unfold preambleLoop
        simp only [if_neg hk1, if_pos hk]
        obtain ⟨vs, hv⟩ := declNames_spec hd R ((us ++ .sym .semi :: R).length + 1) (by simp; omega)
        have : typeDecl k (.kw k :: (us ++ .sym .semi :: R)) = .ok (vs.map (fun x => (x, k)), R) := by
          unfold typeDecl
          rw [adv_cons _ (by simp), Out.ok_bind, hv, Out.ok_bind]
          simp only
          rw [eatSym_self _ hne, Out.ok_bind]
        rw [this, Out.ok_bind]
        simp only [ih, Out.hang_bind]
      | @assign x us e hd =>
        have e' : .id x :: .sym .equals :: us ++ [.sym .semi] ++ R =
            .id x :: .sym .equals :: (us ++ .sym .semi :: R) := by simp
        rw [e']
        unfold preambleLoop
        have hs : Stops false (.sym .semi :: R) := by
          refine ⟨_, _, rfl, by simp, by simp, ?_⟩
          intro s hs e; cases e; revert hs; decide
        have : assignment pc (.id x :: .sym .equals :: (us ++ .sym .semi :: R)) = .ok ((x, e), R) := by
          unfold assignment
          simp only [eatId]
          rw [adv_cons _ (by simp), Out.ok_bind, Out.ok_bind]
          simp only
          rw [eatSym_self _ (by simp), Out.ok_bind]
          unfold parseExpr
          rw [pExpr_complete hd hs, Out.ok_bind]
          simp only
          rw [eatSym_self _ hne, Out.ok_bind]
        simp only
        rw [this, Out.ok_bind]
        simp only [ih, Out.hang_bind]

/-! ### The rest of a model file -/

theorem singleArg_length {pc : PCfg V} {ts : List (Tok V)} {r} (h : singleArg pc ts = .ok r) :
    r.2.length < ts.length := by
  unfold singleArg at h
  obtain ⟨a, h1, h⟩ := Out.bind_ok_iff.mp h
  have := eatId_length h1
  split at h
  · obtain ⟨b, h2, h⟩ := Out.bind_ok_iff.mp h
    have := (adv_length h2).1
    split at h
    · obtain ⟨c, h3, h⟩ := Out.bind_ok_iff.mp h
      have := (adv_length h3).1
      cases h; simp only; omega
    · obtain ⟨c, h3, h⟩ := Out.bind_ok_iff.mp h
      have := (adv_length h3).1
      cases h; simp only; omega
    · obtain ⟨c, h3, h⟩ := Out.bind_ok_iff.mp h
      have := parseExpr_length h3
      cases h; simp only; omega
  · cases h; simp only; omega

theorem singleArg_not_hang (pc : PCfg V) (ts : List (Tok V)) : singleArg pc ts ≠ .hang := by
  unfold singleArg
  refine Out.bind_not_hang (eatId_not_hang _) fun a h1 => ?_
  split
  · refine Out.bind_not_hang (adv_not_hang _) fun b h2 => ?_
    split
    · exact Out.bind_not_hang (adv_not_hang _) fun _ _ => Out.ok_not_hang _
    · exact Out.bind_not_hang (adv_not_hang _) fun _ _ => Out.ok_not_hang _
    · exact Out.bind_not_hang (parseExpr_not_hang _ _) fun _ _ => Out.ok_not_hang _
  · exact Out.ok_not_hang _

theorem argLoop_not_hang (pc : PCfg V) (n : Nat) : ∀ ts : List (Tok V), ts.length < n →
    argLoop pc n ts ≠ .hang := by
  induction n with
  | zero => intro ts h; omega
  | succ n ih =>
    intro ts h
    unfold argLoop
    split
    · refine Out.bind_not_hang (adv_not_hang _) fun a h1 => ?_
      refine Out.bind_not_hang (singleArg_not_hang _ _) fun b h2 => ?_
      have := (adv_length h1).1
      have := singleArg_length h2
      exact Out.bind_not_hang (ih _ (by omega)) fun c h3 => Out.ok_not_hang _
    · exact Out.ok_not_hang _

theorem argLoop_length (pc : PCfg V) (n : Nat) : ∀ (ts : List (Tok V)) r, argLoop pc n ts = .ok r →
    r.2.length ≤ ts.length := by
  induction n with
  | zero => intro ts r h; cases h
  | succ n ih =>
    intro ts r h
    unfold argLoop at h
    split at h
    · obtain ⟨a, h1, h⟩ := Out.bind_ok_iff.mp h
      obtain ⟨b, h2, h⟩ := Out.bind_ok_iff.mp h
      obtain ⟨c, h3, h⟩ := Out.bind_ok_iff.mp h
      have := (adv_length h1).1
      have := singleArg_length h2
      have := ih _ _ h3
      cases h; simp only; omega
    · cases h; exact Nat.le_refl _

theorem optArgs_not_hang (pc : PCfg V) (ts : List (Tok V)) : optArgs pc ts ≠ .hang := by
  unfold optArgs
  split
  · refine Out.bind_not_hang (adv_not_hang _) fun a h1 => ?_
    refine Out.bind_not_hang (singleArg_not_hang _ _) fun b h2 => ?_
    refine Out.bind_not_hang (argLoop_not_hang _ _ _ (by omega)) fun c h3 => ?_
    exact Out.bind_not_hang (eatSym_not_hang _ _) fun c h3 => Out.ok_not_hang _
  · exact Out.ok_not_hang _

theorem optArgs_length {pc : PCfg V} {ts : List (Tok V)} {r} (h : optArgs pc ts = .ok r) :
    r.2.length ≤ ts.length := by
  unfold optArgs at h
  split at h
  · obtain ⟨a, h1, h⟩ := Out.bind_ok_iff.mp h
    obtain ⟨b, h2, h⟩ := Out.bind_ok_iff.mp h
    obtain ⟨c, h3, h⟩ := Out.bind_ok_iff.mp h
    obtain ⟨d, h4, h⟩ := Out.bind_ok_iff.mp h
    have := (adv_length h1).1
    have := singleArg_length h2
    have := argLoop_length _ _ _ _ h3
    have := eatSym_length h4
    cases h; simp only; omega
  · cases h; exact Nat.le_refl _

theorem singleTag_length {ts : List (Tok V)} {r} (h : singleTag ts = .ok r) :
    r.2.length < ts.length := by
  unfold singleTag at h
  obtain ⟨a, h1, h⟩ := Out.bind_ok_iff.mp h
  have := eatId_length h1
  split at h
  · obtain ⟨b, h2, h⟩ := Out.bind_ok_iff.mp h
    have := (adv_length h2).1
    split at h
    · obtain ⟨c, h3, h⟩ := Out.bind_ok_iff.mp h
      have := (adv_length h3).1
      cases h; simp only; omega
    · cases h
  · cases h; simp only; omega

theorem singleTag_not_hang (ts : List (Tok V)) : singleTag ts ≠ .hang := by
  unfold singleTag
  refine Out.bind_not_hang (eatId_not_hang _) fun a h1 => ?_
  split
  · refine Out.bind_not_hang (adv_not_hang _) fun b h2 => ?_
    split
    · exact Out.bind_not_hang (adv_not_hang _) fun _ _ => Out.ok_not_hang _
    · exact Out.err_not_hang _
  · exact Out.ok_not_hang _

theorem tagLoop_not_hang (n : Nat) : ∀ ts : List (Tok V), ts.length < n →
    tagLoop n ts ≠ .hang := by
  induction n with
  | zero => intro ts h; omega
  | succ n ih =>
    intro ts h
    unfold tagLoop
    split
    · refine Out.bind_not_hang (adv_not_hang _) fun a h1 => ?_
      refine Out.bind_not_hang (singleTag_not_hang _) fun b h2 => ?_
      have := (adv_length h1).1
      have := singleTag_length h2
      exact Out.bind_not_hang (ih _ (by omega)) fun c h3 => Out.ok_not_hang _
    · exact Out.ok_not_hang _

theorem tagLoop_length (n : Nat) : ∀ (ts : List (Tok V)) r, tagLoop n ts = .ok r →
    r.2.length ≤ ts.length := by
  induction n with
  | zero => intro ts r h; cases h
  | succ n ih =>
    intro ts r h
    unfold tagLoop at h
    split at h
    · obtain ⟨a, h1, h⟩ := Out.bind_ok_iff.mp h
      obtain ⟨b, h2, h⟩ := Out.bind_ok_iff.mp h
      obtain ⟨c, h3, h⟩ := Out.bind_ok_iff.mp h
      have := (adv_length h1).1
      have := singleTag_length h2
      have := ih _ _ h3
      cases h; simp only; omega
    · cases h; exact Nat.le_refl _

theorem tagList_not_hang (ts : List (Tok V)) : tagList ts ≠ .hang := by
  unfold tagList
  refine Out.bind_not_hang (eatSym_not_hang _ _) fun a h1 => ?_
  refine Out.bind_not_hang (singleTag_not_hang _) fun b h2 => ?_
  refine Out.bind_not_hang (tagLoop_not_hang _ _ (by omega)) fun c h3 => ?_
  exact Out.bind_not_hang (eatSym_not_hang _ _) fun c h3 => Out.ok_not_hang _

theorem tagList_length {ts : List (Tok V)} {r} (h : tagList ts = .ok r) :
    r.2.length ≤ ts.length := by
  unfold tagList at h
  obtain ⟨a, h1, h⟩ := Out.bind_ok_iff.mp h
  obtain ⟨b, h2, h⟩ := Out.bind_ok_iff.mp h
  obtain ⟨c, h3, h⟩ := Out.bind_ok_iff.mp h
  obtain ⟨d, h4, h⟩ := Out.bind_ok_iff.mp h
  have := eatSym_length h1
  have := singleTag_length h2
  have := tagLoop_length _ _ _ h3
  have := eatSym_length h4
  cases h; simp only; omega

theorem modelExpression_not_hang (pc : PCfg V) (ts : List (Tok V)) : modelExpression pc ts ≠ .hang := by
  unfold modelExpression
  refine Out.bind_not_hang (parseMExpr_not_hang _ _) fun a h1 => ?_
  split
  · refine Out.bind_not_hang (adv_not_hang _) fun b h2 => ?_
    exact Out.bind_not_hang (parseMExpr_not_hang _ _) fun _ _ => Out.ok_not_hang _
  · exact Out.ok_not_hang _

theorem modelExpression_length {pc : PCfg V} {ts : List (Tok V)} {r} (h : modelExpression pc ts = .ok r) :
    r.2.length < ts.length := by
  unfold modelExpression at h
  obtain ⟨a, h1, h⟩ := Out.bind_ok_iff.mp h
  have := parseMExpr_length h1
  split at h
  · obtain ⟨b, h2, h⟩ := Out.bind_ok_iff.mp h
    obtain ⟨c, h3, h⟩ := Out.bind_ok_iff.mp h
    have := (adv_length h2).1
    have := parseMExpr_length h3
    cases h; simp only; omega
  · cases h; simp only; omega

theorem localDecl_not_hang (pc : PCfg V) (ts : List (Tok V)) : localDecl pc ts ≠ .hang := by
  unfold localDecl
  refine Out.bind_not_hang (eatSym_not_hang _ _) fun a h1 => ?_
  refine Out.bind_not_hang (eatId_not_hang _) fun b h2 => ?_
  refine Out.bind_not_hang (eatSym_not_hang _ _) fun c h3 => ?_
  exact Out.bind_not_hang (parseMExpr_not_hang _ _) fun _ _ => Out.ok_not_hang _

theorem localDecl_length {pc : PCfg V} {ts : List (Tok V)} {r} (h : localDecl pc ts = .ok r) :
    r.2.length < ts.length := by
  unfold localDecl at h
  obtain ⟨a, h1, h⟩ := Out.bind_ok_iff.mp h
  obtain ⟨b, h2, h⟩ := Out.bind_ok_iff.mp h
  obtain ⟨c, h3, h⟩ := Out.bind_ok_iff.mp h
  obtain ⟨d, h4, h⟩ := Out.bind_ok_iff.mp h
  have := eatSym_length h1
  have := eatId_length h2
  have := eatSym_length h3
  have := parseMExpr_length h4
  cases h; simp only; omega

theorem modelStatement_not_hang (pc : PCfg V) (ts : List (Tok V)) : modelStatement pc ts ≠ .hang := by
  unfold modelStatement
  split
  · refine Out.bind_not_hang (localDecl_not_hang _ _) fun a h1 => ?_
    exact Out.bind_not_hang (eatSym_not_hang _ _) fun _ _ => Out.ok_not_hang _
  · split
    · refine Out.bind_not_hang (tagList_not_hang _) fun a h1 => ?_
      refine Out.bind_not_hang (modelExpression_not_hang _ _) fun a h1 => ?_
      exact Out.bind_not_hang (eatSym_not_hang _ _) fun _ _ => Out.ok_not_hang _
    · refine Out.bind_not_hang (modelExpression_not_hang _ _) fun a h1 => ?_
      exact Out.bind_not_hang (eatSym_not_hang _ _) fun _ _ => Out.ok_not_hang _

theorem modelStatement_length {pc : PCfg V} {ts : List (Tok V)} {r} (h : modelStatement pc ts = .ok r) :
    r.2.length < ts.length := by
  unfold modelStatement at h
  split at h
  · obtain ⟨a, h1, h⟩ := Out.bind_ok_iff.mp h
    obtain ⟨b, h2, h⟩ := Out.bind_ok_iff.mp h
    have := localDecl_length h1
    have := eatSym_length h2
    cases h; simp only; omega
  · split at h
    · obtain ⟨a, h1, h⟩ := Out.bind_ok_iff.mp h
      obtain ⟨b, h2, h⟩ := Out.bind_ok_iff.mp h
      obtain ⟨c, h3, h⟩ := Out.bind_ok_iff.mp h
      have := tagList_length h1
      have := modelExpression_length h2
      have := eatSym_length h3
      cases h; simp only; omega
    · obtain ⟨b, h2, h⟩ := Out.bind_ok_iff.mp h
      obtain ⟨c, h3, h⟩ := Out.bind_ok_iff.mp h
      have := modelExpression_length h2
      have := eatSym_length h3
      cases h; simp only; omega

theorem modelLoop_not_hang (pc : PCfg V) (n : Nat) : ∀ ts : List (Tok V), ts.length < n →
    modelLoop pc n ts ≠ .hang := by
  induction n with
  | zero => intro ts h; omega
  | succ n ih =>
    intro ts h
    unfold modelLoop
    split
    · exact Out.ok_not_hang _
    · refine Out.bind_not_hang (modelStatement_not_hang _ _) fun b h2 => ?_
      have := modelStatement_length h2
      exact Out.bind_not_hang (ih _ (by omega)) fun c h3 => Out.ok_not_hang _

theorem modelDefinition_not_hang (pc : PCfg V) (ts : List (Tok V)) : modelDefinition pc ts ≠ .hang := by
  unfold modelDefinition
  refine Out.bind_not_hang (eatKw_not_hang _ _) fun a h1 => ?_
  refine Out.bind_not_hang (optArgs_not_hang _ _) fun b h2 => ?_
  refine Out.bind_not_hang (eatSym_not_hang _ _) fun c h3 => ?_
  refine Out.bind_not_hang (modelLoop_not_hang _ _ _ (by omega)) fun d h4 => ?_
  refine Out.bind_not_hang (eatKw_not_hang _ _) fun e h5 => ?_
  exact Out.bind_not_hang (eatSym_not_hang _ _) fun _ _ => Out.ok_not_hang _

theorem boundLoop_not_hang (pc : PCfg V) (n : Nat) : ∀ ts : List (Tok V), ts.length < n →
    boundLoop pc n ts ≠ .hang := by
  induction n with
  | zero => intro ts h; omega
  | succ n ih =>
    intro ts h
    unfold boundLoop
    split
    · exact Out.ok_not_hang _
    · refine Out.bind_not_hang (assignment_not_hang _ _) fun b h2 => ?_
      have := assignment_length h2
      exact Out.bind_not_hang (ih _ (by omega)) fun c h3 => Out.ok_not_hang _

theorem boundLoop_length (pc : PCfg V) (n : Nat) : ∀ (ts : List (Tok V)) r, boundLoop pc n ts = .ok r →
    r.2.length ≤ ts.length := by
  induction n with
  | zero => intro ts r h; cases h
  | succ n ih =>
    intro ts r h
    unfold boundLoop at h
    split at h
    · cases h; exact Nat.le_refl _
    · obtain ⟨b, h2, h⟩ := Out.bind_ok_iff.mp h
      obtain ⟨c, h3, h⟩ := Out.bind_ok_iff.mp h
      have := assignment_length h2
      have := ih _ _ h3
      cases h; simp only; omega

theorem boundaryValues_not_hang (pc : PCfg V) (ts : List (Tok V)) : boundaryValues pc ts ≠ .hang := by
  unfold boundaryValues
  refine Out.bind_not_hang (adv_not_hang _) fun a h1 => ?_
  refine Out.bind_not_hang (optArgs_not_hang _ _) fun b h2 => ?_
  refine Out.bind_not_hang (eatSym_not_hang _ _) fun c h3 => ?_
  refine Out.bind_not_hang (boundLoop_not_hang _ _ _ (by omega)) fun d h4 => ?_
  refine Out.bind_not_hang (eatKw_not_hang _ _) fun e h5 => ?_
  exact Out.bind_not_hang (eatSym_not_hang _ _) fun _ _ => Out.ok_not_hang _

theorem boundaryValues_length {pc : PCfg V} {ts : List (Tok V)} {r} (h : boundaryValues pc ts = .ok r) :
    r.2.length < ts.length := by
  unfold boundaryValues at h
  obtain ⟨a, h1, h⟩ := Out.bind_ok_iff.mp h
  obtain ⟨b, h2, h⟩ := Out.bind_ok_iff.mp h
  obtain ⟨c, h3, h⟩ := Out.bind_ok_iff.mp h
  obtain ⟨d, h4, h⟩ := Out.bind_ok_iff.mp h
  obtain ⟨e, h5, h⟩ := Out.bind_ok_iff.mp h
  obtain ⟨f, h6, h⟩ := Out.bind_ok_iff.mp h
  have := (adv_length h1).1
  have := optArgs_length h2
  have := eatSym_length h3
  have := boundLoop_length _ _ _ _ h4
  have := eatKw_length h5
  have := eatSym_length h6
  cases h; simp only; omega

theorem periodsLoop_not_hang (n : Nat) : ∀ ts : List (Tok V), ts.length < n →
    periodsLoop n ts ≠ .hang := by
  induction n with
  | zero => intro ts h; omega
  | succ n ih =>
    intro ts h
    have go : ∀ ts : List (Tok V), ts.length < n + 1 → (do
      let s ← eatNum ts
      if isSym .colon s.2 then do
        let r ← adv s.2
        let e ← eatNum r
        let rest ← periodsLoop n e.2
        .ok ((s.1, e.1) :: rest.1, rest.2)
      else do
        let rest ← periodsLoop n s.2
        .ok ((s.1, s.1) :: rest.1, rest.2)) ≠ Out.hang := by
      intro ts h
      refine Out.bind_not_hang (eatNum_not_hang _) fun a h1 => ?_
      have := eatNum_length h1
      split
      · refine Out.bind_not_hang (adv_not_hang _) fun b h2 => ?_
        refine Out.bind_not_hang (eatNum_not_hang _) fun c h3 => ?_
        have := (adv_length h2).1
        have := eatNum_length h3
        exact Out.bind_not_hang (ih _ (by omega)) fun c h3 => Out.ok_not_hang _
      · exact Out.bind_not_hang (ih _ (by omega)) fun c h3 => Out.ok_not_hang _
    unfold periodsLoop
    simp only
    split
    · refine Out.bind_not_hang (adv_not_hang _) fun a h1 => ?_
      have := (adv_length h1).1
      exact go _ (by omega)
    · exact go _ (by omega)
    · exact Out.ok_not_hang _

theorem periodsLoop_length (n : Nat) : ∀ (ts : List (Tok V)) r, periodsLoop n ts = .ok r →
    r.2.length ≤ ts.length := by
  induction n with
  | zero => intro ts r h; cases h
  | succ n ih =>
    intro ts r h
    have go : ∀ (ts : List (Tok V)) r, (do
      let s ← eatNum ts
      if isSym .colon s.2 then do
        let r ← adv s.2
        let e ← eatNum r
        let rest ← periodsLoop n e.2
        .ok ((s.1, e.1) :: rest.1, rest.2)
      else do
        let rest ← periodsLoop n s.2
        .ok ((s.1, s.1) :: rest.1, rest.2)) = Out.ok r → r.2.length ≤ ts.length := by
      intro ts r h
      obtain ⟨a, h1, h⟩ := Out.bind_ok_iff.mp h
      have := eatNum_length h1
      split at h
      · obtain ⟨b, h2, h⟩ := Out.bind_ok_iff.mp h
        obtain ⟨c, h3, h⟩ := Out.bind_ok_iff.mp h
        obtain ⟨d, h4, h⟩ := Out.bind_ok_iff.mp h
        have := (adv_length h2).1
        have := eatNum_length h3
        have := ih _ _ h4
        cases h; simp only; omega
      · obtain ⟨d, h4, h⟩ := Out.bind_ok_iff.mp h
        have := ih _ _ h4
        cases h; simp only; omega
    unfold periodsLoop at h
    simp only at h
    split at h
    · obtain ⟨b, h2, h⟩ := Out.bind_ok_iff.mp h
      have := (adv_length h2).1
      have := go _ _ h
      omega
    · exact go _ _ h
    · cases h; exact Nat.le_refl _

theorem valuesLoop_not_hang (pc : PCfg V) (n : Nat) : ∀ ts : List (Tok V), ts.length < n →
    valuesLoop pc n ts ≠ .hang := by
  induction n with
  | zero => intro ts h; omega
  | succ n ih =>
    intro ts h
    unfold valuesLoop
    have go : ∀ ts : List (Tok V), ts.length < n + 1 → (match ts with
      | .num v :: _ => do
        let r ← adv ts
        let rest ← valuesLoop pc n r
        .ok (.num v :: rest.1, rest.2)
      | _ => do
        let r ← eatSym .lpare ts
        let e ← parseExpr pc r
        let r ← eatSym .rpare e.2
        let rest ← valuesLoop pc n r
        .ok (e.1 :: rest.1, rest.2)) ≠ Out.hang := by
      intro ts h
      split
      · refine Out.bind_not_hang (adv_not_hang _) fun a h1 => ?_
        have := (adv_length h1).1
        exact Out.bind_not_hang (ih _ (by omega)) fun c h3 => Out.ok_not_hang _
      · refine Out.bind_not_hang (eatSym_not_hang _ _) fun a h1 => ?_
        refine Out.bind_not_hang (parseExpr_not_hang _ _) fun b h2 => ?_
        refine Out.bind_not_hang (eatSym_not_hang _ _) fun c h3 => ?_
        have := eatSym_length h1
        have := parseExpr_length h2
        have := eatSym_length h3
        exact Out.bind_not_hang (ih _ (by omega)) fun c h3 => Out.ok_not_hang _
    simp only
    split
    · refine Out.bind_not_hang (adv_not_hang _) fun a h1 => ?_
      have := (adv_length h1).1
      exact go _ (by omega)
    · exact go _ (by omega)
    · exact go _ (by omega)
    · exact Out.ok_not_hang _

theorem valuesLoop_length (pc : PCfg V) (n : Nat) : ∀ (ts : List (Tok V)) r,
    valuesLoop pc n ts = .ok r → r.2.length ≤ ts.length := by
  induction n with
  | zero => intro ts r h; cases h
  | succ n ih =>
    intro ts r h
    unfold valuesLoop at h
    have go : ∀ (ts : List (Tok V)) r, (match (generalizing := false) ts with
      | .num v :: _ => do
        let r ← adv ts
        let rest ← valuesLoop pc n r
        .ok (.num v :: rest.1, rest.2)
      | _ => do
        let r ← eatSym .lpare ts
        let e ← parseExpr pc r
        let r ← eatSym .rpare e.2
        let rest ← valuesLoop pc n r
        .ok (e.1 :: rest.1, rest.2)) = Out.ok r → r.2.length ≤ ts.length := by
      intro ts r h
      split at h
      · obtain ⟨b, h2, h⟩ := Out.bind_ok_iff.mp h
        obtain ⟨d, h4, h⟩ := Out.bind_ok_iff.mp h
        have := (adv_length h2).1
        have := ih _ _ h4
        cases h; simp only; omega
      · obtain ⟨b, h2, h⟩ := Out.bind_ok_iff.mp h
        obtain ⟨c, h3, h⟩ := Out.bind_ok_iff.mp h
        obtain ⟨d, h4, h⟩ := Out.bind_ok_iff.mp h
        obtain ⟨e, h5, h⟩ := Out.bind_ok_iff.mp h
        have := eatSym_length h2
        have := parseExpr_length h3
        have := eatSym_length h4
        have := ih _ _ h5
        cases h; simp only; omega
    simp only at h
    split at h
    · obtain ⟨b, h2, h⟩ := Out.bind_ok_iff.mp h
      have := (adv_length h2).1
      have := go _ _ h
      omega
    · exact go _ _ h
    · exact go _ _ h
    · cases h; exact Nat.le_refl _

theorem pairShock_ok (pc : PCfg V) (mk) (ts : List (Tok V)) : pairShock pc mk ts ≠ .hang ∧
    ∀ r, pairShock pc mk ts = .ok r → r.2.length < ts.length := by
  unfold pairShock
  constructor
  · refine Out.bind_not_hang (adv_not_hang _) fun _ _ => ?_
    refine Out.bind_not_hang (eatId_not_hang _) fun _ _ => ?_
    refine Out.bind_not_hang (eatSym_not_hang _ _) fun _ _ => ?_
    refine Out.bind_not_hang (eatId_not_hang _) fun _ _ => ?_
    refine Out.bind_not_hang (eatSym_not_hang _ _) fun _ _ => ?_
    exact Out.bind_not_hang (parseExpr_not_hang _ _) fun _ _ => Out.ok_not_hang _
  · intro r h
    obtain ⟨a, h1, h⟩ := Out.bind_ok_iff.mp h
    obtain ⟨b, h2, h⟩ := Out.bind_ok_iff.mp h
    obtain ⟨c, h3, h⟩ := Out.bind_ok_iff.mp h
    obtain ⟨d, h4, h⟩ := Out.bind_ok_iff.mp h
    obtain ⟨e, h5, h⟩ := Out.bind_ok_iff.mp h
    obtain ⟨f, h6, h⟩ := Out.bind_ok_iff.mp h
    have := (adv_length h1).1
    have := eatId_length h2
    have := eatSym_length h3
    have := eatId_length h4
    have := eatSym_length h5
    have := parseExpr_length h6
    cases h; simp only; omega

theorem varianceShock_ok (pc : PCfg V) (ts : List (Tok V)) : varianceShock pc ts ≠ .hang ∧
    ∀ r, varianceShock pc ts = .ok r → r.2.length < ts.length := by
  unfold varianceShock
  constructor
  · refine Out.bind_not_hang (adv_not_hang _) fun _ _ => ?_
    refine Out.bind_not_hang (eatId_not_hang _) fun _ _ => ?_
    refine Out.bind_not_hang (eatSym_not_hang _ _) fun _ _ => ?_
    exact Out.bind_not_hang (parseExpr_not_hang _ _) fun _ _ => Out.ok_not_hang _
  · intro r h
    obtain ⟨a, h1, h⟩ := Out.bind_ok_iff.mp h
    obtain ⟨b, h2, h⟩ := Out.bind_ok_iff.mp h
    obtain ⟨c, h3, h⟩ := Out.bind_ok_iff.mp h
    obtain ⟨f, h6, h⟩ := Out.bind_ok_iff.mp h
    have := (adv_length h1).1
    have := eatId_length h2
    have := eatSym_length h3
    have := parseExpr_length h6
    cases h; simp only; omega

theorem stderrShock_ok (pc : PCfg V) (ts : List (Tok V)) : stderrShock pc ts ≠ .hang ∧
    ∀ r, stderrShock pc ts = .ok r → r.2.length < ts.length := by
  unfold stderrShock
  constructor
  · refine Out.bind_not_hang (adv_not_hang _) fun _ _ => ?_
    refine Out.bind_not_hang (eatId_not_hang _) fun _ _ => ?_
    refine Out.bind_not_hang (eatSym_not_hang _ _) fun _ _ => ?_
    refine Out.bind_not_hang (eatKw_not_hang _ _) fun _ _ => ?_
    exact Out.bind_not_hang (parseExpr_not_hang _ _) fun _ _ => Out.ok_not_hang _
  · intro r h
    obtain ⟨a, h1, h⟩ := Out.bind_ok_iff.mp h
    obtain ⟨b, h2, h⟩ := Out.bind_ok_iff.mp h
    obtain ⟨c, h3, h⟩ := Out.bind_ok_iff.mp h
    obtain ⟨d, h4, h⟩ := Out.bind_ok_iff.mp h
    obtain ⟨f, h6, h⟩ := Out.bind_ok_iff.mp h
    have := (adv_length h1).1
    have := eatId_length h2
    have := eatSym_length h3
    have := eatKw_length h4
    have := parseExpr_length h6
    cases h; simp only; omega

theorem detShock_ok (pc : PCfg V) (ts : List (Tok V)) : detShock pc ts ≠ .hang ∧
    ∀ r, detShock pc ts = .ok r → r.2.length < ts.length := by
  unfold detShock
  constructor
  · refine Out.bind_not_hang (adv_not_hang _) fun _ _ => ?_
    refine Out.bind_not_hang (eatId_not_hang _) fun _ _ => ?_
    refine Out.bind_not_hang (eatSym_not_hang _ _) fun _ _ => ?_
    refine Out.bind_not_hang (eatKw_not_hang _ _) fun _ _ => ?_
    refine Out.bind_not_hang (periodsLoop_not_hang _ _ (by omega)) fun _ _ => ?_
    refine Out.bind_not_hang (eatSym_not_hang _ _) fun _ _ => ?_
    refine Out.bind_not_hang (eatKw_not_hang _ _) fun _ _ => ?_
    exact Out.bind_not_hang (valuesLoop_not_hang _ _ _ (by omega)) fun _ _ => Out.ok_not_hang _
  · intro r h
    obtain ⟨a, h1, h⟩ := Out.bind_ok_iff.mp h
    obtain ⟨b, h2, h⟩ := Out.bind_ok_iff.mp h
    obtain ⟨c, h3, h⟩ := Out.bind_ok_iff.mp h
    obtain ⟨d, h4, h⟩ := Out.bind_ok_iff.mp h
    obtain ⟨e, h5, h⟩ := Out.bind_ok_iff.mp h
    obtain ⟨f, h6, h⟩ := Out.bind_ok_iff.mp h
    obtain ⟨g, h7, h⟩ := Out.bind_ok_iff.mp h
    obtain ⟨i, h8, h⟩ := Out.bind_ok_iff.mp h
    have := (adv_length h1).1
    have := eatId_length h2
    have := eatSym_length h3
    have := eatKw_length h4
    have := periodsLoop_length _ _ _ h5
    have := eatSym_length h6
    have := eatKw_length h7
    have := valuesLoop_length _ _ _ _ h8
    cases h; simp only; omega

theorem shock_ok (pc : PCfg V) (ts : List (Tok V)) : shock pc ts ≠ .hang ∧
    ∀ r, shock pc ts = .ok r → r.2.length < ts.length := by
  unfold shock
  split
  · exact pairShock_ok _ _ _
  · split
    · exact ⟨Out.err_not_hang _, fun r h => by cases h⟩
    · split
      · exact pairShock_ok _ _ _
      · split
        · exact varianceShock_ok _ _
        · split
          · split
            · exact ⟨Out.err_not_hang _, fun r h => by cases h⟩
            · split
              · exact stderrShock_ok _ _
              · exact detShock_ok _ _
          · exact detShock_ok _ _

theorem shocksLoop_ok (pc : PCfg V) (n : Nat) : ∀ ts : List (Tok V),
    (ts.length < n → shocksLoop pc n ts ≠ .hang) ∧
    ∀ r, shocksLoop pc n ts = .ok r → r.2.length ≤ ts.length := by
  induction n with
  | zero => intro ts; exact ⟨fun h => by omega, fun r h => by cases h⟩
  | succ n ih =>
    intro ts
    unfold shocksLoop
    split
    · constructor
      · intro h
        refine Out.bind_not_hang (shock_ok _ _).1 fun b h2 => ?_
        refine Out.bind_not_hang (eatSym_not_hang _ _) fun c h3 => ?_
        have := (shock_ok _ _).2 _ h2
        have := eatSym_length h3
        exact Out.bind_not_hang ((ih _).1 (by omega)) fun c h3 => Out.ok_not_hang _
      · intro r h
        obtain ⟨a, h1, h⟩ := Out.bind_ok_iff.mp h
        obtain ⟨b, h2, h⟩ := Out.bind_ok_iff.mp h
        obtain ⟨c, h3, h⟩ := Out.bind_ok_iff.mp h
        have := (shock_ok _ _).2 _ h1
        have := eatSym_length h2
        have := (ih _).2 _ h3
        cases h; simp only; omega
    · exact ⟨fun _ => Out.ok_not_hang _, fun r h => by cases h; exact Nat.le_refl _⟩

theorem shocksBlock_ok (pc : PCfg V) (ts : List (Tok V)) : shocksBlock pc ts ≠ .hang ∧
    ∀ r, shocksBlock pc ts = .ok r → r.2.length < ts.length := by
  unfold shocksBlock
  constructor
  · refine Out.bind_not_hang (adv_not_hang _) fun a h1 => ?_
    refine Out.bind_not_hang (optArgs_not_hang _ _) fun b h2 => ?_
    refine Out.bind_not_hang (eatSym_not_hang _ _) fun c h3 => ?_
    refine Out.bind_not_hang ((shocksLoop_ok _ _ _).1 (by omega)) fun d h4 => ?_
    refine Out.bind_not_hang (eatKw_not_hang _ _) fun e h5 => ?_
    exact Out.bind_not_hang (eatSym_not_hang _ _) fun _ _ => Out.ok_not_hang _
  · intro r h
    obtain ⟨a, h1, h⟩ := Out.bind_ok_iff.mp h
    obtain ⟨b, h2, h⟩ := Out.bind_ok_iff.mp h
    obtain ⟨c, h3, h⟩ := Out.bind_ok_iff.mp h
    obtain ⟨d, h4, h⟩ := Out.bind_ok_iff.mp h
    obtain ⟨e, h5, h⟩ := Out.bind_ok_iff.mp h
    obtain ⟨f, h6, h⟩ := Out.bind_ok_iff.mp h
    have := (adv_length h1).1
    have := optArgs_length h2
    have := eatSym_length h3
    have := (shocksLoop_ok _ _ _).2 _ h4
    have := eatKw_length h5
    have := eatSym_length h6
    cases h; simp only; omega

theorem actionsLoop_not_hang (pc : PCfg V) (n : Nat) : ∀ (acc : Actions V) (ts : List (Tok V)),
    ts.length < n → actionsLoop pc n acc ts ≠ .hang := by
  induction n with
  | zero => intro acc ts h; omega
  | succ n ih =>
    intro acc ts h
    unfold actionsLoop
    split
    · exact Out.err_not_hang _
    · exact Out.ok_not_hang _
    · have bd : ∀ (f : Bound V × List (Tok V) → Actions V) k (ts' : List (Tok V)),
          (Tok.kw k :: ts' : List (Tok V)).length < n + 1 →
          (boundaryValues pc (.kw k :: ts') >>= fun b => actionsLoop pc n (f b) b.2) ≠ .hang := by
        intro f k ts' h
        refine Out.bind_not_hang (boundaryValues_not_hang _ _) fun b h1 => ?_
        have := boundaryValues_length h1
        exact ih _ _ (by omega)
      split
      · exact bd (fun b => _) _ _ h
      · split
        · exact bd (fun b => _) _ _ h
        · split
          · exact bd (fun b => _) _ _ h
          · split
            · refine Out.bind_not_hang (shocksBlock_ok _ _).1 fun b h1 => ?_
              have := (shocksBlock_ok _ _).2 _ h1
              exact ih _ _ (by omega)
            · exact Out.err_not_hang _
    · exact Out.bind_not_hang (assignment_not_hang _ _) fun _ _ => Out.err_not_hang _
    · exact Out.err_not_hang _

theorem parseModel_hang_iff (pc : PCfg V) (ts : List (Tok V)) :
    parseModel pc ts = .hang ↔ preamble pc ts = .hang := by
  constructor
  · intro h
    unfold parseModel at h
    rcases Out.bind_hang_iff.mp h with h | ⟨a, _, h⟩
    · exact h
    · refine absurd h (Out.bind_not_hang (modelDefinition_not_hang _ _) fun b h1 => ?_)
      exact Out.bind_not_hang (actionsLoop_not_hang _ _ _ _ (by omega)) fun _ _ => Out.ok_not_hang _
  · intro h
    unfold parseModel
    rw [h]; rfl

end Pynare
