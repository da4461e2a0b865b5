import Verif.Lemmas.Parser
/-! Printed trees are phrases of the disambiguated grammar, with as few tokens as possible. -/

namespace Pynare

variable {V : Type}

theorem gram_lift {a : Prop} {pc : PCfg V} {m o : Bool} {us : List (Tok V)} {e : Expr V} (lvl : Lvl)
    (hl : lvl ≠ .atom) (h : Gram a m pc o .call us e) : Gram a m pc o lvl us e := by
  cases lvl with
  | atom => exact absurd rfl hl
  | call => exact h
  | expo => exact .call h
  | term => exact .expo (.call h)
  | expr => exact .term (.expo (.call h))

theorem unOp_sign (u : UnOp) : Sym.sign u.sym = some u := by cases u <;> rfl

theorem gram_parens {a : Prop} {pc : PCfg V} {m o : Bool} {us : List (Tok V)} {e : Expr V} (lvl : Lvl)
    (hl : lvl ≠ .atom) (h : Gram a m pc o .expr us e) : Gram a m pc false lvl (parens true us) e :=
  gram_lift lvl hl (.atom (.paren h))

theorem print_gram {pc : PCfg V} {m : Bool} {lit : Nat → V}
    (hlit : m = true → ∀ k, pc.trunc (lit k) = .ok k) (e : Expr V) (hp : e.plain m) :
    ∀ lvl o, lvl ≠ .atom →
      ∃ o', (o' = true → o = true) ∧ Gram False m pc o' lvl (e.print lit lvl o) e := by
  induction e with
  | num v => intro lvl o hl; exact ⟨false, fun h => (by cases h), gram_lift lvl hl (.atom .num)⟩
  | var x => intro lvl o hl; exact ⟨false, fun h => (by cases h), gram_lift lvl hl (.atom .id)⟩
  | pvar x k =>
    intro lvl o hl
    refine ⟨false, fun h => (by cases h), gram_lift lvl hl (.atom ?_)⟩
    have hm : m = true := hp
    have ht := hlit hm k.natAbs
    by_cases hk : 0 ≤ k
    · have := @Gram.pid V False m pc x .plus .pos _ _ hm rfl ht
      simp only [if_true, Int.natAbs_of_nonneg hk] at this
      simp only [Expr.print, if_pos hk]
      exact this
    · have := @Gram.pid V False m pc x .minus .neg _ _ hm rfl ht
      have e1 : -((k.natAbs : Nat) : Int) = k := by omega
      simp only [reduceCtorEq, if_false, e1] at this
      simp only [Expr.print, if_neg hk]
      exact this
  | cmp => exact hp.elim
  | fn f e ih =>
    intro lvl o hl
    obtain ⟨o', _, g⟩ := ih hp .expr true (by simp)
    exact ⟨false, fun h => (by cases h), gram_lift lvl hl (.func g)⟩
  | un u e ih =>
    intro lvl o hl
    obtain ⟨o', _, g⟩ := ih hp .term true (by simp)
    have g' := Gram.sign (unOp_sign u) g
    cases o with
    | true => exact ⟨true, fun _ => rfl, gram_lift lvl hl (.atom g')⟩
    | false =>
      exact ⟨false, fun h => h, gram_parens lvl hl (gram_lift .expr (by simp) (.atom g'))⟩
  | bin b l r ihl ihr =>
    intro lvl o hl
    have no : ∀ o' : Bool, (o' = true → false = true) → o' = false := by
      intro o' h; cases o' with | false => rfl | true => exact absurd (h rfl) (by simp)
    have pw : ∀ o, ∃ o', (o' = true → o = true) ∧ Gram False m pc o' .expo
        (l.print lit .call false ++ .sym .power :: r.print lit .expo o) (.bin .pow l r) := by
      intro o
      obtain ⟨o1, h1, g1⟩ := ihl hp.1 .call false (by simp)
      obtain ⟨o2, h2, g2⟩ := ihr hp.2 .expo o (by simp)
      exact ⟨o2, h2, .pow (Or.inr (no o1 h1)) g1 g2⟩
    have ml : ∀ b, Sym.mulOp b.sym = some b → ∀ o, ∃ o', (o' = true → o = true) ∧ Gram False m pc o' .term
        (l.print lit .term false ++ .sym b.sym :: r.print lit .expo o) (.bin b l r) := by
      intro b hb o
      obtain ⟨o1, h1, g1⟩ := ihl hp.1 .term false (by simp)
      obtain ⟨o2, h2, g2⟩ := ihr hp.2 .expo o (by simp)
      exact ⟨o2, h2, .mul (Or.inr (no o1 h1)) hb g1 g2⟩
    have ad : ∀ b, Sym.addOp b.sym = some b → ∀ o, ∃ o', (o' = true → o = true) ∧ Gram False m pc o' .expr
        (l.print lit .expr true ++ .sym b.sym :: r.print lit .term o) (.bin b l r) := by
      intro b hb o
      obtain ⟨o1, h1, g1⟩ := ihl hp.1 .expr true (by simp)
      obtain ⟨o2, h2, g2⟩ := ihr hp.2 .term o (by simp)
      exact ⟨o2, h2, .add hb g1 g2⟩
    have mlall : ∀ b, Sym.mulOp b.sym = some b → ∃ o', (o' = true → o = true) ∧ Gram False m pc o' lvl
        (if lvl = .expr ∨ lvl = .term then
          l.print lit .term false ++ .sym b.sym :: r.print lit .expo o
        else parens true (l.print lit .term false ++ .sym b.sym :: r.print lit .expo true))
        (.bin b l r) := by
      intro b hb
      split
      · rename_i hlv
        obtain ⟨o', h, g⟩ := ml b hb o
        rcases hlv with rfl | rfl
        · exact ⟨o', h, .term g⟩
        · exact ⟨o', h, g⟩
      · obtain ⟨o', h, g⟩ := ml b hb true
        exact ⟨false, fun h => (by cases h), gram_parens lvl hl (.term g)⟩
    have adall : ∀ b, Sym.addOp b.sym = some b → ∃ o', (o' = true → o = true) ∧ Gram False m pc o' lvl
        (if lvl = .expr then l.print lit .expr true ++ .sym b.sym :: r.print lit .term o
        else parens true (l.print lit .expr true ++ .sym b.sym :: r.print lit .term true))
        (.bin b l r) := by
      intro b hb
      split
      · rename_i hlv
        obtain ⟨o', h, g⟩ := ad b hb o
        subst hlv
        exact ⟨o', h, g⟩
      · obtain ⟨o', h, g⟩ := ad b hb true
        exact ⟨false, fun h => (by cases h), gram_parens lvl hl g⟩
    cases b with
    | pow =>
      simp only [Expr.print]
      split
      · obtain ⟨o', h, g⟩ := pw true
        exact ⟨false, fun h => (by cases h), gram_parens lvl hl (.term (.expo g))⟩
      · rename_i hlv
        obtain ⟨o', h, g⟩ := pw o
        cases lvl with
        | atom => simp at hl
        | call => simp at hlv
        | expo => exact ⟨o', h, g⟩
        | term => exact ⟨o', h, .expo g⟩
        | expr => exact ⟨o', h, .term (.expo g)⟩
    | mul => exact mlall .mul rfl
    | div => exact mlall .div rfl
    | add => exact adall .add rfl
    | sub => exact adall .sub rfl

/-! ### Minimality -/

theorem parens_length (b : Bool) (ts : List (Tok V)) :
    (parens b ts).length = ts.length + if b then 2 else 0 := by
  cases b <;> simp [parens]

/-- allowing an open end never makes the phrase longer, and saves at most one pair -/
theorem print_open (lit : Nat → V) (e : Expr V) : ∀ lvl,
    (e.print lit lvl true).length ≤ (e.print lit lvl false).length ∧
    (e.print lit lvl false).length ≤ (e.print lit lvl true).length + 2 := by
  induction e with
  | num v => intro lvl; simp [Expr.print]
  | var v => intro lvl; simp [Expr.print]
  | pvar x k => intro lvl; simp [Expr.print]
  | cmp b l r ihl ihr => intro lvl; exact ihl lvl
  | fn f e ih => intro lvl; simp [Expr.print]
  | un u e ih => intro lvl; simp [Expr.print, parens_length]
  | bin b l r ihl ihr =>
    intro lvl
    have h1 := ihr .expo
    have h2 := ihr .term
    cases b <;> simp only [Expr.print] <;> split <;> simp [parens_length] <;> omega

/-- a phrase of any category is at most one pair of parentheses longer -/
theorem print_any (lit : Nat → V) (e : Expr V) (lvl : Lvl) (o : Bool) :
    (e.print lit lvl o).length ≤ (e.print lit .expr true).length + 2 := by
  induction e with
  | num v => simp [Expr.print]
  | var v => simp [Expr.print]
  | pvar x k => simp [Expr.print]
  | cmp b l r ihl ihr => exact ihl
  | fn f e ih => simp [Expr.print]
  | un u e ih => cases o <;> simp [Expr.print, parens_length]
  | bin b l r ihl ihr =>
    have h1 := print_open lit r .expo
    have h2 := print_open lit r .term
    cases o <;> cases b <;> simp only [Expr.print] <;> split <;> simp [parens_length] <;> omega

theorem print_atom_call (lit : Nat → V) (e : Expr V) (o : Bool) :
    e.print lit .atom o = e.print lit .call o := by
  induction e with
  | cmp b l r ihl ihr => exact ihl
  | bin b l r ihl ihr => cases b <;> simp [Expr.print]
  | _ => rfl

theorem print_call_expo (lit : Nat → V) (e : Expr V) (o : Bool) :
    (e.print lit .expo o).length ≤ (e.print lit .call o).length := by
  induction e with
  | cmp b l r ihl ihr => exact ihl
  | bin b l r ihl ihr =>
    have h1 := print_open lit r .expo
    cases o <;> cases b <;> simp [Expr.print, parens_length] <;> omega
  | _ => exact Nat.le_refl _

theorem print_expo_term (lit : Nat → V) (e : Expr V) (o : Bool) :
    (e.print lit .term o).length ≤ (e.print lit .expo o).length := by
  induction e with
  | cmp b l r ihl ihr => exact ihl
  | bin b l r ihl ihr =>
    have h1 := print_open lit r .expo
    cases o <;> cases b <;> simp [Expr.print, parens_length] <;> omega
  | _ => exact Nat.le_refl _

theorem print_term_expr (lit : Nat → V) (e : Expr V) (o : Bool) :
    (e.print lit .expr o).length ≤ (e.print lit .term o).length := by
  induction e with
  | cmp b l r ihl ihr => exact ihl
  | bin b l r ihl ihr =>
    have h1 := print_open lit r .term
    cases o <;> cases b <;> simp [Expr.print, parens_length] <;> omega
  | _ => exact Nat.le_refl _

/-- no phrase of the disambiguated grammar for a tree is shorter than the printed one -/
theorem print_minimal (lit : Nat → V) {pc : PCfg V} {m o : Bool} {lvl : Lvl} {us : List (Tok V)}
    {e : Expr V} (h : Gram False m pc o lvl us e) : (e.print lit lvl o).length ≤ us.length := by
  induction h with
  | id => simp [Expr.print]
  | pid => simp [Expr.print]
  | num => simp [Expr.print]
  | @paren o ts e g ih =>
    have h1 := print_any lit e .atom false
    have h2 := print_open lit e .expr
    simp only [List.length_append, List.length_cons, List.length_nil]
    cases o <;> omega
  | @sign o s u ts e hs g ih =>
    have h2 := print_open lit e .term
    cases o <;> simp [Expr.print, parens_length] <;> omega
  | @atom o ts e g ih => rw [← print_atom_call]; exact ih
  | @func o f ts e g ih =>
    have h2 := print_open lit e .expr
    cases o <;> simp [Expr.print] <;> omega
  | @call o ts e g ih => exact Nat.le_trans (print_call_expo lit e o) ih
  | @pow o o' ts us l r ho g1 g2 ih1 ih2 =>
    have ho : o = false := by rcases ho with h | h; exact h.elim; exact h
    subst ho
    simp [Expr.print]; omega
  | @expo o ts e g ih => exact Nat.le_trans (print_expo_term lit e o) ih
  | @mul o o' s b ts us l r ho hb g1 g2 ih1 ih2 =>
    have ho : o = false := by rcases ho with h | h; exact h.elim; exact h
    subst ho
    have : b = .mul ∨ b = .div := by cases s <;> simp [Sym.mulOp] at hb <;> simp [← hb]
    rcases this with rfl | rfl <;> simp [Expr.print] <;> omega
  | @term o ts e g ih => exact Nat.le_trans (print_term_expr lit e o) ih
  | @add o o' s b ts us l r hb g1 g2 ih1 ih2 =>
    have h2 := print_open lit l .expr
    have : b = .add ∨ b = .sub := by cases s <;> simp [Sym.addOp] at hb <;> simp [← hb]
    rcases this with rfl | rfl <;> cases o <;> simp [Expr.print] <;> omega

/-! ### Shape of phrases -/

theorem gram_toks {a : Prop} {pc : PCfg V} {m o : Bool} {lvl : Lvl} {us : List (Tok V)} {e : Expr V}
    (h : Gram a m pc o lvl us e) : ∀ t ∈ us, t.inExpr = true := by
  have hs : ∀ s u, Sym.sign s = some u → (Tok.sym s : Tok V).inExpr = true := by
    intro s u h; cases s <;> simp [Sym.sign] at h <;> rfl
  have hm : ∀ s u, Sym.mulOp s = some u → (Tok.sym s : Tok V).inExpr = true := by
    intro s u h; cases s <;> simp [Sym.mulOp] at h <;> rfl
  have ha : ∀ s u, Sym.addOp s = some u → (Tok.sym s : Tok V).inExpr = true := by
    intro s u h; cases s <;> simp [Sym.addOp] at h <;> rfl
  induction h with
  | id => simp [Tok.inExpr]
  | pid _ h _ =>
    have := hs _ _ h
    intro t ht
    simp only [List.mem_cons, List.not_mem_nil, or_false] at ht
    rcases ht with rfl | rfl | rfl | rfl | rfl <;> first | rfl | exact this
  | num => simp [Tok.inExpr]
  | paren _ ih => intro t ht; simp at ht; rcases ht with rfl | ht | rfl <;> first | rfl | exact ih _ ht
  | sign h _ ih =>
    intro t ht
    rcases List.mem_cons.mp ht with rfl | ht
    · exact hs _ _ h
    · exact ih _ ht
  | atom _ ih => exact ih
  | func _ ih =>
    intro t ht; simp at ht
    rcases ht with rfl | rfl | ht | rfl <;> first | rfl | exact ih _ ht
  | call _ ih => exact ih
  | pow _ _ _ ih1 ih2 =>
    intro t ht; simp at ht
    rcases ht with ht | rfl | ht
    · exact ih1 _ ht
    · rfl
    · exact ih2 _ ht
  | expo _ ih => exact ih
  | mul _ h _ _ ih1 ih2 =>
    intro t ht; simp at ht
    rcases ht with ht | rfl | ht
    · exact ih1 _ ht
    · exact hm _ _ h
    · exact ih2 _ ht
  | term _ ih => exact ih
  | add h _ _ ih1 ih2 =>
    intro t ht; simp at ht
    rcases ht with ht | rfl | ht
    · exact ih1 _ ht
    · exact ha _ _ h
    · exact ih2 _ ht

theorem gram_last {a : Prop} {pc : PCfg V} {m o : Bool} {lvl : Lvl} {us : List (Tok V)} {e : Expr V}
    (h : Gram a m pc o lvl us e) : ∃ pre t, us = pre ++ [t] ∧ t.endsOperand = true := by
  induction h with
  | id => exact ⟨[], _, rfl, rfl⟩
  | pid _ h _ => exact ⟨[_, _, _, _], _, rfl, rfl⟩
  | num => exact ⟨[], _, rfl, rfl⟩
  | paren _ ih => exact ⟨_, _, rfl, rfl⟩
  | sign h _ ih =>
    obtain ⟨pre, t, rfl, h⟩ := ih
    exact ⟨_ :: pre, t, rfl, h⟩
  | atom _ ih => exact ih
  | func _ ih => exact ⟨_, _, rfl, rfl⟩
  | call _ ih => exact ih
  | pow _ _ _ ih1 ih2 =>
    obtain ⟨pre, t, rfl, h⟩ := ih2
    exact ⟨_, t, (List.append_assoc _ (_ :: pre) [t]).symm, h⟩
  | expo _ ih => exact ih
  | mul _ h _ _ ih1 ih2 =>
    obtain ⟨pre, t, rfl, h⟩ := ih2
    exact ⟨_, t, (List.append_assoc _ (_ :: pre) [t]).symm, h⟩
  | term _ ih => exact ih
  | add h _ _ ih1 ih2 =>
    obtain ⟨pre, t, rfl, h⟩ := ih2
    exact ⟨_, t, (List.append_assoc _ (_ :: pre) [t]).symm, h⟩

theorem symCount_append (s : Sym) (a b : List (Tok V)) :
    symCount s (a ++ b) = symCount s a + symCount s b := by
  simp [symCount]

theorem symCount_cons (s : Sym) (t : Tok V) (b : List (Tok V)) :
    symCount s (t :: b) = (if isSym s [t] then 1 else 0) + symCount s b := by
  simp only [symCount, List.filter_cons]
  split <;> simp <;> omega

theorem gram_balanced {a : Prop} {pc : PCfg V} {m o : Bool} {lvl : Lvl} {us : List (Tok V)} {e : Expr V}
    (h : Gram a m pc o lvl us e) : symCount .lpare us = symCount .rpare us := by
  have nil : ∀ s, symCount s ([] : List (Tok V)) = 0 := fun _ => rfl
  have h0 : isSym .lpare [(.sym .lpare : Tok V)] = true ∧ isSym .rpare [(.sym .lpare : Tok V)] = false ∧
      isSym .lpare [(.sym .rpare : Tok V)] = false ∧ isSym .rpare [(.sym .rpare : Tok V)] = true :=
    ⟨rfl, rfl, rfl, rfl⟩
  have hs : ∀ s u, Sym.sign s = some u → isSym .lpare [(.sym s : Tok V)] = false ∧
      isSym .rpare [(.sym s : Tok V)] = false := by
    intro s u h; cases s <;> simp [Sym.sign] at h <;> exact ⟨rfl, rfl⟩
  have hm : ∀ s u, Sym.mulOp s = some u → isSym .lpare [(.sym s : Tok V)] = false ∧
      isSym .rpare [(.sym s : Tok V)] = false := by
    intro s u h; cases s <;> simp [Sym.mulOp] at h <;> exact ⟨rfl, rfl⟩
  have ha : ∀ s u, Sym.addOp s = some u → isSym .lpare [(.sym s : Tok V)] = false ∧
      isSym .rpare [(.sym s : Tok V)] = false := by
    intro s u h; cases s <;> simp [Sym.addOp] at h <;> exact ⟨rfl, rfl⟩
  induction h with
  | id => rfl
  | pid _ h _ =>
    obtain ⟨e1, e2⟩ := hs _ _ h
    simp only [symCount_cons, nil, h0, e1, e2]
    simp [isSym]
  | num => rfl
  | paren _ ih => simp only [symCount_cons, symCount_append, List.cons_append, nil, h0, ih]; simp; omega
  | sign h _ ih => obtain ⟨e1, e2⟩ := hs _ _ h; simp [symCount_cons, e1, e2, ih]
  | atom _ ih => exact ih
  | func _ ih =>
    simp only [symCount_cons, symCount_append, List.cons_append, nil, h0, ih]
    simp [isSym]; omega
  | call _ ih => exact ih
  | pow _ _ _ ih1 ih2 => simp only [symCount_append, symCount_cons, ih1, ih2]; simp [isSym]
  | expo _ ih => exact ih
  | mul _ h _ _ ih1 ih2 =>
    obtain ⟨e1, e2⟩ := hm _ _ h
    simp only [symCount_append, symCount_cons, ih1, ih2, e1, e2]
  | term _ ih => exact ih
  | add h _ _ ih1 ih2 =>
    obtain ⟨e1, e2⟩ := ha _ _ h
    simp only [symCount_append, symCount_cons, ih1, ih2, e1, e2]

/-- adjacent tokens: no call after a closing parenthesis -/
def adjOk : List (Tok V) → Prop
  | a :: b :: r => ¬ (isSym .rpare [a] = true ∧ ∃ f, b = .func f) ∧ adjOk (b :: r)
  | _ => True

theorem adjOk_noCall {ts : List (Tok V)} (h : adjOk ts) : NoCallAfterParen ts := by
  intro pre f post e
  subst e
  induction pre with
  | nil => exact h.1 ⟨rfl, f, rfl⟩
  | cons p pre ih =>
    cases pre with
    | nil => exact ih h.2
    | cons q pre => exact ih h.2

theorem adjOk_sym {s : Sym} (hs : s ≠ .rpare) {us : List (Tok V)} (h : adjOk us) :
    adjOk (.sym s :: us) := by
  cases us with
  | nil => trivial
  | cons u us => exact ⟨fun h => hs (by simpa [isSym] using h.1), h⟩

theorem adjOk_join {us vs : List (Tok V)} (s : Sym) (h : adjOk us) (h' : adjOk (.sym s :: vs)) :
    adjOk (us ++ .sym s :: vs) := by
  induction us with
  | nil => exact h'
  | cons u us ih =>
    cases us with
    | nil => exact ⟨fun h => (by obtain ⟨_, f, e⟩ := h; cases e), h'⟩
    | cons w us => exact ⟨h.1, ih h.2⟩

theorem gram_noCall {a : Prop} {pc : PCfg V} {m o : Bool} {lvl : Lvl} {us : List (Tok V)} {e : Expr V}
    (h : Gram a m pc o lvl us e) : NoCallAfterParen us := by
  refine adjOk_noCall ?_
  have hs : ∀ s u, Sym.sign s = some u → s ≠ .rpare := by
    intro s u h; cases s <;> simp [Sym.sign] at h <;> simp
  have hm : ∀ s u, Sym.mulOp s = some u → s ≠ .rpare := by
    intro s u h; cases s <;> simp [Sym.mulOp] at h <;> simp
  have ha : ∀ s u, Sym.addOp s = some u → s ≠ .rpare := by
    intro s u h; cases s <;> simp [Sym.addOp] at h <;> simp
  induction h with
  | id => trivial
  | pid _ h _ =>
    simp [adjOk]
  | num => trivial
  | @paren o ts e g ih =>
    exact adjOk_sym (by simp) (adjOk_join .rpare ih trivial)
  | sign h _ ih => exact adjOk_sym (hs _ _ h) ih
  | atom _ ih => exact ih
  | @func o f ts e g ih =>
    refine ⟨fun h => (by cases h.1), ?_⟩
    exact adjOk_sym (by simp) (adjOk_join .rpare ih trivial)
  | call _ ih => exact ih
  | pow _ _ _ ih1 ih2 => exact adjOk_join _ ih1 (adjOk_sym (by simp) ih2)
  | expo _ ih => exact ih
  | mul _ h _ _ ih1 ih2 => exact adjOk_join _ ih1 (adjOk_sym (hm _ _ h) ih2)
  | term _ ih => exact ih
  | add h _ _ ih1 ih2 => exact adjOk_join _ ih1 (adjOk_sym (ha _ _ h) ih2)

end Pynare
