import Verif.Lemmas.SemanticsParse
/-!
# C20 – C22: the semantic check

`verify m` – the semantic check of the model file `m`; `m.Declared x`, `m.DeclaredAs x k` – the
file declares `x` (by the keyword `k`); `m.Assigned x` – the preamble assigns `x` a value;
`s.defines x` – the statement `s` of the model block defines the local variable `x`.
-/

namespace Pynare

variable {V : Type}

/-- Small files used as witnesses. -/
private def sampleFile (params : List (String × Expr Nat)) (rhs : Expr Nat)
    (shocks : Option (Shocks Nat)) : ModelFile Nat where
  decls := [("y", "var"), ("e", "varexo"), ("rho", "parameters")]
  params := params
  args := []
  stmts := [.loc "z" (.bin .mul (.var "rho") (.num 2)), .eqn (.var "y") rhs none]
  actions := ⟨some ⟨[], [("y", .var "rho")]⟩, none, none, shocks⟩

private def sampleShocks : Shocks Nat := ⟨[], [.variance "e" (.num 1)]⟩

/-- **C20.** Exact description of what the check accepts: `Accepted m`
(`Verif/Spec/Semantics.lean`) lists the conditions on names, kinds and order of definition. -/
theorem C20_accepts_iff (m : ModelFile V) (hk : ∀ p ∈ m.decls, p.2 ∈ varTypes) :
    verify m = .ok () ↔ Accepted m :=
  verify_iff m hk

/-- The hypothesis of `C20_accepts_iff` holds of every parsed file. -/
theorem C20_accepts_parsed_iff (pc : PCfg V) (ts : List (Tok V)) (m : ModelFile V)
    (h : parseModel pc ts = .ok m) : verify m = .ok () ↔ Accepted m :=
  verify_iff m (parseModel_kinds pc ts m h)

example : ∃ (m : ModelFile Nat), (∀ p ∈ m.decls, p.2 ∈ varTypes) ∧ verify m = .ok () :=
  ⟨sampleFile [("rho", .num 3)] (.bin .add (.var "z") (.pvar "y" 1)) (some sampleShocks),
    by decide, by rfl⟩

/-- **C20, as stated, is false**: a name that is assigned before the model block but never
declared is accepted in an equation, and so is the name `non_model`, which occurs nowhere else. -/
theorem C20_undeclared_accepted :
    (∃ m : ModelFile Nat, verify m = .ok () ∧ ¬ m.Declared "a" ∧
      ∃ l r tags, Stmt.eqn l r tags ∈ m.stmts ∧ "a" ∈ r.vars ∧ ∀ s ∈ m.stmts, ¬ s.defines "a") ∧
    (∃ m : ModelFile Nat, verify m = .ok () ∧ ¬ m.Declared "non_model" ∧ ¬ m.Assigned "non_model" ∧
      ∃ l r tags, Stmt.eqn l r tags ∈ m.stmts ∧ "non_model" ∈ r.vars ∧
        ∀ s ∈ m.stmts, ¬ s.defines "non_model") := by
  refine ⟨⟨sampleFile [("a", .num 3)] (.var "a") (some sampleShocks), by rfl, ?_, .var "y", .var "a",
    none, by decide, by decide, ?_⟩,
    ⟨sampleFile [] (.var "non_model") (some sampleShocks), by rfl, ?_, ?_, .var "y",
      .var "non_model", none, by decide, by decide, ?_⟩⟩
  · rintro ⟨k, h⟩; simp [ModelFile.DeclaredAs, sampleFile] at h
  · rintro s hs ⟨e, rfl⟩; simp [sampleFile] at hs
  · rintro ⟨k, h⟩; simp [ModelFile.DeclaredAs, sampleFile] at h
  · rintro ⟨e, h⟩; simp [sampleFile] at h
  · rintro s hs ⟨e, rfl⟩; simp [sampleFile] at hs

/-- **C20 under its guard** (partial: the claim fails for undeclared names that the preamble
assigns and for the word `non_model`, see `C20_undeclared_accepted`).  If the preamble only
assigns declared names, then in an accepted file
* every name without period in an equation is declared, or a local variable defined above, or one
  of the eight type words;
* every name with a period is declared, and not as a parameter;
* boundary values are set only for names declared by `var`;
* shocks are set only for names declared by `varexo` or `varexo_det`. -/
theorem C20_names_partial (m : ModelFile V) (hk : ∀ p ∈ m.decls, p.2 ∈ varTypes)
    (h : verify m = .ok ()) (ha : ∀ x, m.Assigned x → m.Declared x) :
    (∀ pre l r tags post, m.stmts = pre ++ .eqn l r tags :: post →
      (∀ x, x ∈ l.vars ∨ x ∈ r.vars →
        m.Declared x ∨ (∃ s ∈ pre, s.defines x) ∨ TypeWord x) ∧
      (∀ x o, (x, o) ∈ l.pvars ∨ (x, o) ∈ r.pvars →
        m.Declared x ∧ ¬ m.DeclaredAs x "parameters")) ∧
    (∀ b, m.actions.initval = some b ∨ m.actions.endval = some b ∨ m.actions.histval = some b →
      ∀ x e, (x, e) ∈ b.vals → m.DeclaredAs x "var" ∧ ∀ y ∈ e.vars, m.Declared y ∨ TypeWord y) ∧
    (∀ s, m.actions.shocks = some s → ∀ t ∈ s.shocks,
      match t with
      | .variance x e | .stderr x e =>
        (m.DeclaredAs x "varexo" ∨ m.DeclaredAs x "varexo_det") ∧ ∀ z ∈ e.vars, m.Declared z ∨ TypeWord z
      | .corr x y e | .cov x y e =>
        (m.DeclaredAs x "varexo" ∨ m.DeclaredAs x "varexo_det") ∧
        (m.DeclaredAs y "varexo" ∨ m.DeclaredAs y "varexo_det") ∧ ∀ z ∈ e.vars, m.Declared z ∨ TypeWord z
      | .det _ _ _ => False) := by
  have acc := (verify_iff m hk).mp h
  have uniq : ∀ x k k', m.DeclaredAs x k → m.DeclaredAs x k' → k = k' := by
    intro x k k' h1 h2
    have := Dict.get?_of_mem (d := m.decls) acc.declNodup h1
    have h3 := Dict.get?_of_mem (d := m.decls) acc.declNodup h2
    rw [this] at h3; simpa using h3
  have known : ∀ y, m.Declared y ∨ m.Assigned y ∨ TypeWord y → m.Declared y ∨ TypeWord y := by
    rintro y (a | a | a)
    · exact Or.inl a
    · exact Or.inl (ha y a)
    · exact Or.inr a
  refine ⟨?_, ?_, ?_⟩
  · intro pre l r tags post he
    refine ⟨?_, ?_⟩
    · intro x hx
      have : m.Declared x ∨ m.Assigned x ∨ TypeWord x ∨ ∃ s ∈ pre, s.defines x := by
        rcases hx with hx | hx
        · exact (acc.eqnExpr pre l r tags post he l (Or.inl rfl)).vars x hx
        · exact (acc.eqnExpr pre l r tags post he r (Or.inr rfl)).vars x hx
      rcases this with a | a | a | a
      · exact Or.inl a
      · exact Or.inl (ha x a)
      · exact Or.inr (Or.inr a)
      · exact Or.inr (Or.inl a)
    · intro x o hx
      have : m.Timed x := by
        rcases hx with hx | hx
        · exact (acc.eqnExpr pre l r tags post he l (Or.inl rfl)).pvars x o hx
        · exact (acc.eqnExpr pre l r tags post he r (Or.inr rfl)).pvars x o hx
      obtain ⟨k, h1, h2⟩ := this
      exact ⟨⟨k, h1⟩, fun h3 => h2 (uniq x k _ h1 h3)⟩
  · intro b hb x e hm
    have := acc.bound b hb x e hm
    exact ⟨this.1, fun y hy => known y (this.2.vars y hy)⟩
  · intro s hs t ht
    cases t with
    | det x p v => exact acc.noDet s hs x p v ht
    | variance x e =>
      have := acc.exo s hs x e (Or.inl ht)
      exact ⟨this.1, fun y hy => known y (this.2.vars y hy)⟩
    | stderr x e =>
      have := acc.exo s hs x e (Or.inr (Or.inl ht))
      exact ⟨this.1, fun y hy => known y (this.2.vars y hy)⟩
    | corr x y e =>
      have a := acc.exo s hs x e (Or.inr (Or.inr (Or.inl ⟨y, ht⟩)))
      have b := acc.exo s hs y e (Or.inr (Or.inr (Or.inr (Or.inr (Or.inl ⟨x, ht⟩)))))
      exact ⟨a.1, b.1, fun y hy => known y (a.2.vars y hy)⟩
    | cov x y e =>
      have a := acc.exo s hs x e (Or.inr (Or.inr (Or.inr (Or.inl ⟨y, ht⟩))))
      have b := acc.exo s hs y e (Or.inr (Or.inr (Or.inr (Or.inr (Or.inr ⟨x, ht⟩)))))
      exact ⟨a.1, b.1, fun y hy => known y (a.2.vars y hy)⟩

/-- non-trivial case: an accepted file that assigns a declared parameter, has a local variable, a
lead, a boundary value and a shock -/
example : ∃ m : ModelFile Nat, (∀ p ∈ m.decls, p.2 ∈ varTypes) ∧ verify m = .ok () ∧
    (∀ x, m.Assigned x → m.Declared x) :=
  ⟨sampleFile [("rho", .num 3)] (.bin .add (.var "z") (.pvar "y" 1)) (some sampleShocks),
    by decide, by rfl, by
      rintro x ⟨e, h⟩
      simp [sampleFile] at h
      exact ⟨"parameters", by simp [ModelFile.DeclaredAs, sampleFile, h.1]⟩⟩

/-- **C21.** In an accepted file no name is declared twice, and a local model variable is neither a
declared name, nor a name assigned in the preamble, nor an earlier local variable. -/
theorem C21_declared_once (m : ModelFile V) (hk : ∀ p ∈ m.decls, p.2 ∈ varTypes)
    (h : verify m = .ok ()) :
    (m.decls.map Prod.fst).Nodup ∧
    (∀ pre x e post, m.stmts = pre ++ .loc x e :: post →
      x ∉ m.decls.map Prod.fst ∧ x ∉ m.params.map Prod.fst ∧
      ∀ e', Stmt.loc x e' ∉ pre ∧ Stmt.loc x e' ∉ post) := by
  have acc := (verify_iff m hk).mp h
  refine ⟨acc.declNodup, ?_⟩
  intro pre x e post he
  obtain ⟨a1, a2, _, a4⟩ := acc.localNew pre x e post he
  refine ⟨fun h => a1 ((declared_iff m x).mpr h), ?_, ?_⟩
  · intro hm
    obtain ⟨⟨y, f⟩, hf, rfl⟩ := List.mem_map.mp hm
    exact a2 ⟨f, hf⟩
  · intro e'
    refine ⟨fun hm => a4 _ hm ⟨e', rfl⟩, fun hm => ?_⟩
    obtain ⟨p1, p2, rfl⟩ := List.append_of_mem hm
    have := acc.localNew (pre ++ .loc x e :: p1) x e' p2 (by simp [he])
    exact this.2.2.2 (.loc x e) (by simp) ⟨e, rfl⟩

/-- non-trivial case -/
example : ∃ m : ModelFile Nat, (∀ p ∈ m.decls, p.2 ∈ varTypes) ∧ verify m = .ok () ∧
    m.decls.length = 3 ∧ ∃ x e, Stmt.loc x e ∈ m.stmts :=
  ⟨sampleFile [("rho", .num 3)] (.var "z") (some sampleShocks), by decide, by rfl, rfl, "z",
    .bin .mul (.var "rho") (.num 2), by decide⟩

/-- and a file that declares a name twice is rejected with `NameError` -/
example : verify (V := Nat) ⟨[("y", "var"), ("y", "varexo")], [], [], [],
    ⟨none, none, none, some ⟨[], []⟩⟩⟩ = .error .nameError := by rfl

/-- **C22, as stated, is false**: no file without a shocks block is accepted; one that would be
accepted with an empty block raises a bare `Exception`. -/
theorem C22_no_shocks_block_rejected (m : ModelFile V) (hs : m.actions.shocks = none) :
    verify m ≠ .ok () ∧
    (verify { m with actions := { m.actions with shocks := some ⟨[], []⟩ } } = .ok () →
      verify m = .error .exception) := by
  constructor
  · intro h
    simp only [verify, Except.bind_ok_iff, semActions, hs] at h
    obtain ⟨_, _, _, _, _, _, _, _, _, _, _, _, h⟩ := h
    simp at h
  · intro h
    simp only [verify, Except.bind_ok_iff, semActions] at h
    obtain ⟨g0, h0, g, h1, m', h2, _, b1, _, b2, _, b3, _⟩ := h
    simp [verify, semActions, h0, h1, h2, b1, b2, b3, hs, bind, Except.bind]

/-- non-trivial case: a file that only lacks the block -/
example : ∃ m : ModelFile Nat, m.actions.shocks = none ∧
    verify { m with actions := { m.actions with shocks := some ⟨[], []⟩ } } = .ok () :=
  ⟨sampleFile [("rho", .num 3)] (.var "z") none, rfl, by rfl⟩

/-- **C22, what does hold** (partial: the block itself cannot be omitted).  A shocks block may omit
any shock, down to the empty block: replacing the shocks of an accepted file by any part of them
leaves it accepted. -/
theorem C22_shocks_omitted_partial (m : ModelFile V) (hk : ∀ p ∈ m.decls, p.2 ∈ varTypes)
    (s : Shocks V) (hs : m.actions.shocks = some s) (h : verify m = .ok ())
    (ss : List (Shock V)) (hsub : ∀ t ∈ ss, t ∈ s.shocks) (args) :
    verify { m with actions := { m.actions with shocks := some ⟨args, ss⟩ } } = .ok () := by
  have acc := (verify_iff m hk).mp h
  refine (verify_iff _ (by exact hk)).mpr ?_
  refine ⟨acc.declNodup, acc.declWord, acc.assign, acc.assignExpr, acc.localNew, acc.localExpr,
    acc.eqnExpr, acc.bound, ⟨_, rfl⟩, ?_, ?_⟩
  · rintro t ht x ps vs hm
    simp at ht; subst ht
    exact acc.noDet s hs x ps vs (hsub _ hm)
  · rintro t ht x e hm
    simp at ht; subst ht
    refine acc.exo s hs x e ?_
    rcases hm with h | h | ⟨y, h⟩ | ⟨y, h⟩ | ⟨y, h⟩ | ⟨y, h⟩
    · exact Or.inl (hsub _ h)
    · exact Or.inr (Or.inl (hsub _ h))
    · exact Or.inr (Or.inr (Or.inl ⟨y, hsub _ h⟩))
    · exact Or.inr (Or.inr (Or.inr (Or.inl ⟨y, hsub _ h⟩)))
    · exact Or.inr (Or.inr (Or.inr (Or.inr (Or.inl ⟨y, hsub _ h⟩))))
    · exact Or.inr (Or.inr (Or.inr (Or.inr (Or.inr ⟨y, hsub _ h⟩))))

/-- non-trivial case: one shock given, dropped -/
example : ∃ m : ModelFile Nat, (∀ p ∈ m.decls, p.2 ∈ varTypes) ∧
    m.actions.shocks = some sampleShocks ∧ verify m = .ok () :=
  ⟨sampleFile [("rho", .num 3)] (.var "z") (some sampleShocks), by decide, rfl, by rfl⟩

#print axioms C20_accepts_iff
#print axioms C20_accepts_parsed_iff
#print axioms C20_undeclared_accepted
#print axioms C20_names_partial
#print axioms C21_declared_once
#print axioms C22_no_shocks_block_rejected
#print axioms C22_shocks_omitted_partial

end Pynare
