import Verif.Lemmas.FactoryCalib
import Verif.Props.Calib
import Verif.Props.Parser
/-!
# C23, C25 – C27: from a model file to the model's ingredients

`createOutline ops sq m` – the outline built from the file `m`; `Exec ops noValues m.params ρ` –
running the assignments of the preamble from top to bottom gives the names the values `ρ`;
`HoldsValues ops ρ vals d` – the table `d` holds for each name of `vals` the value of its last
entry, and nothing else; `OccursAt x p e` – `x` occurs in `e` at period `p`; `outlineCalib` – the
calibration computed from the outline; `readLeadLags` – the incidence that the model object reads
from its equations.
-/

namespace Pynare

variable {V : Type}

/-- A small file used as witness: parameters `a`, `b`, variable `y`, shock `e`. -/
private def sample (params : List (String × Expr Nat)) (stmts : List (Stmt Nat))
    (i e h : Option (Bound Nat)) : ModelFile Nat where
  decls := [("y", "var"), ("x", "var"), ("e", "varexo"), ("a", "parameters"), ("b", "parameters")]
  params := params
  args := []
  stmts := stmts
  actions := ⟨i, e, h, some ⟨[], []⟩⟩

private theorem sample_kinds (ps ss i e h) : ∀ p ∈ (sample ps ss i e h).decls, p.2 ∈ varTypes := by
  simp [sample]; decide

private def yv (n : Nat) : Option (Bound Nat) := some ⟨[], [("y", .bin .add (.var "a") (.num n))]⟩

/-- squares are not needed by the witnesses -/
private def sq0 : Nat → Except Err Nat := fun n => .ok (n * n)

/-! ### C23: boundary values -/

/-- **C23, for initial and terminal values** (partial: historical values are wrong, see the two
theorems below).  For every accepted file whose assignments can be executed, whatever other blocks
are present, the initial values are those of the `initval` block and the terminal values those of
the `endval` block (none when the block is missing); without `histval` block there are no
historical values. -/
theorem C23_initial_terminal_partial {ops : Ops V} {sq : V → Except Err V} {m : ModelFile V}
    {o : Outline V} (h : createOutline ops sq m = .ok o) {ρ : String → Option V}
    (hρ : Exec ops noValues m.params ρ) :
    HoldsValues ops ρ (blockVals m.actions.initval) o.initial ∧
    HoldsValues ops ρ (blockVals m.actions.endval) o.terminal ∧
    (m.actions.histval = none → o.historical = []) := by
  obtain ⟨_, o1, s, st, o2, b, d, h1, h2, h3, h4, _, _, rfl⟩ := createOutline_inv h
  have hd := facDecls_inv declInv_nil h1
  have hi : FacInv ⟨o1, [], []⟩ := facInv_start hd
  have hm : memLookup [s.file, s.model] = ρ := facAssigns_exec hi h2 (by
    rw [memLookup_empty]; exact hρ)
  obtain ⟨hs, _⟩ := facAssigns_params hi h2
  have hst := facStmts_spec _ h3
  obtain ⟨_, _, _, _, _, _, _, i1, t1, g1, _⟩ := hst
  obtain ⟨_, _, _, _, _, _, i2, t2, g2, _⟩ := hs
  obtain ⟨_, _, r1, r2, r3, _⟩ := hd.rest
  obtain ⟨k1, k2, k3, _⟩ := facBounds_spec h4
  have empty : HoldsValues ops ρ [] ([] : Dict (Option V)) :=
    ⟨by simp [Dict.keys], fun pre x e post h => by simp at h⟩
  rw [hm] at k1 k2
  refine ⟨?_, ?_, ?_⟩
  · cases hb : m.actions.initval with
    | none =>
      rw [hb] at k1; simp only at k1
      show HoldsValues ops ρ [] o2.initial
      rw [k1, i1, i2, r1]; exact empty
    | some b =>
      rw [hb] at k1; simp only at k1
      exact facBound_holds k1
  · cases hb : m.actions.endval with
    | none =>
      rw [hb] at k2; simp only at k2
      show HoldsValues ops ρ [] o2.terminal
      rw [k2, t1, t2, r2]; exact empty
    | some b =>
      rw [hb] at k2; simp only at k2
      exact facBound_holds k2
  · intro hb
    rw [hb] at k3; simp only at k3
    show o2.historical = []
    rw [k3, g1, g2, r3]

/-- non-trivial case: both blocks present, values computed from a parameter -/
example : ∃ (m : ModelFile Nat) (o : Outline Nat) (ρ : String → Option Nat),
    createOutline natOps sq0 m = .ok o ∧ Exec natOps noValues m.params ρ ∧
    o.initial = [("y", some 4)] ∧ o.terminal = [("y", some 5)] :=
  ⟨sample [("a", .num 3)] [] (yv 1) (yv 2) none, _, _, rfl, .cons .num .nil, rfl, rfl⟩

/-- **C23 is false for historical values**: no file with a `histval` block and without an `endval`
block is accepted; one whose values can be computed raises `UnboundLocalError`. -/
theorem C23_histval_needs_endval {ops : Ops V} {sq : V → Except Err V} {m : ModelFile V}
    {b : Bound V} (hh : m.actions.histval = some b) (he : m.actions.endval = none) :
    (∀ o, createOutline ops sq m ≠ .ok o) ∧
    (∀ o, createOutline ops sq { m with actions := { m.actions with endval := some b } } = .ok o →
      createOutline ops sq m = .error .unboundLocal) := by
  constructor
  · intro o h
    obtain ⟨_, o1, s, st, o2, b, d, h1, h2, h3, h4, _⟩ := createOutline_inv h
    obtain ⟨_, _, k3, _⟩ := facBounds_spec h4
    rw [hh] at k3; simp only at k3
    obtain ⟨⟨b', h'⟩, _⟩ := k3
    rw [he] at h'; cases h'
  · intro o h
    obtain ⟨h0, o1, s, st, o2, sh, d, h1, h2, h3, h4, h5, _⟩ := createOutline_inv h
    have hv : verify m = .ok () := by
      simp only [verify, Except.bind_ok_iff, semActions] at h0 ⊢
      obtain ⟨g0, q0, g1, q1, g2, q2, u1, b1, u2, b2, u3, b3, hz⟩ := h0
      refine ⟨g0, q0, g1, q1, g2, q2, u1, b1, u2, ?_, u3, b3, hz⟩
      rw [he]; rfl
    obtain ⟨k1, k2, _⟩ := facBounds_spec h4
    simp only at k1 k2
    simp only at h1 h2 h3
    have hb : facBounds ops (memLookup [s.file, s.model]) st.1 m.actions = .error .unboundLocal := by
      simp only [facBounds, hh, he]
      cases hi : m.actions.initval with
      | none => simp [bind, Except.bind, pure, Except.pure, k2]
      | some c =>
        rw [hi] at k1; simp only at k1
        simp [bind, Except.bind, pure, Except.pure, k1, k2]
    simp only [createOutline, hv, h1, h2, h3, bind, Except.bind, hb]

/-- non-trivial case: a file that is accepted once an `endval` block is added -/
example : ∃ (m : ModelFile Nat) (b : Bound Nat) (o : Outline Nat), m.actions.histval = some b ∧
    m.actions.endval = none ∧
    createOutline natOps sq0 { m with actions := { m.actions with endval := some b } } = .ok o :=
  ⟨sample [("a", .num 3)] [] none none (yv 1), _, _, rfl, rfl, rfl⟩

/-- **C23 is false for historical values**, second way: with an `endval` block the historical
values are always the terminal ones, so a `histval` block that says otherwise is ignored. -/
theorem C23_histval_is_endval :
    (∀ {ops : Ops V} {sq : V → Except Err V} {m : ModelFile V} {o : Outline V} {b : Bound V},
      createOutline ops sq m = .ok o → m.actions.histval = some b → o.historical = o.terminal) ∧
    ∃ (m : ModelFile Nat) (o : Outline Nat) (ρ : String → Option Nat),
      createOutline natOps sq0 m = .ok o ∧ Exec natOps noValues m.params ρ ∧
      ¬ HoldsValues natOps ρ (blockVals m.actions.histval) o.historical := by
  refine ⟨?_, ?_⟩
  · intro ops sq m o b h hh
    obtain ⟨_, o1, s, st, o2, c, d, h1, h2, h3, h4, _, _, rfl⟩ := createOutline_inv h
    obtain ⟨_, _, k3, _⟩ := facBounds_spec h4
    rw [hh] at k3; simp only at k3
    exact k3.2
  · refine ⟨sample [("a", .num 3)] [] none (yv 1) (yv 2), _, _, rfl, .cons .num .nil, ?_⟩
    rintro ⟨_, h⟩
    have := h [] "y" (.bin .add (.var "a") (.num 2)) [] rfl (by simp) 5
      (.bin (.var rfl) .num rfl)
    exact absurd (show (some (some 4) : Option (Option Nat)) = some (some 5) from this) (by decide)

/-! ### C25: values of parameters -/

/-- **C25, as stated, is false**, two ways: for `a = 1; b = a; a = 2` executing the file gives
`b = 1` but the calibration has `b = 2`; and when a parameter is computed from a name that is
assigned but not declared, the calibration raises `KeyError`. -/
theorem C25_last_assignment_false :
    (∃ (m : ModelFile Nat) (o : Outline Nat) (ρ : String → Option Nat) (c : Dict (Def Nat)),
      createOutline natOps sq0 m = .ok o ∧ Exec natOps noValues m.params ρ ∧
      outlineCalib natOps o = .ok c ∧ ρ "b" = some 1 ∧ calibVal c "b" = some 2) ∧
    (∃ (m : ModelFile Nat) (o : Outline Nat) (ρ : String → Option Nat),
      createOutline natOps sq0 m = .ok o ∧ Exec natOps noValues m.params ρ ∧
      ρ "a" = some 1 ∧ ρ "b" = some 2 ∧ outlineCalib natOps o = .error .keyError) := by
  refine ⟨⟨sample [("a", .num 1), ("b", .var "a"), ("a", .num 2)] [] none none none, _, _, _, rfl,
      .cons .num (.cons (.var rfl) (.cons .num .nil)), rfl, rfl, rfl⟩,
    ⟨sample [("q", .num 1), ("a", .var "q"), ("b", .num 2)] [] none none none, _, _, rfl,
      .cons .num (.cons (.var rfl) (.cons .num .nil)), rfl, rfl, rfl⟩⟩

/-- **C25 under its guard** (partial).  Let every declared parameter be assigned, and let the last
assignment of each declared parameter use only declared parameters, none of which is the
parameter itself or assigned again further down.  Then the calibration succeeds, has exactly the
declared parameters, and each has the value that executing the file from top to bottom gives it. -/
theorem C25_execution_partial {ops : Ops V} {sq : V → Except Err V} {m : ModelFile V}
    (hk : ∀ p ∈ m.decls, p.2 ∈ varTypes)
    {o : Outline V} (h : createOutline ops sq m = .ok o) {ρ : String → Option V}
    (hρ : Exec ops noValues m.params ρ)
    (hall : ∀ x, m.DeclaredAs x "parameters" → m.Assigned x)
    (hlast : ∀ pre x e post, m.params = pre ++ (x, e) :: post → m.DeclaredAs x "parameters" →
      (∀ e', (x, e') ∉ post) → ∀ y ∈ e.vars,
        m.DeclaredAs y "parameters" ∧ y ≠ x ∧ ∀ e', (y, e') ∉ post) :
    ∃ c, outlineCalib ops o = .ok c ∧ (∀ x, x ∈ c.keys ↔ m.DeclaredAs x "parameters") ∧
      ∀ x, m.DeclaredAs x "parameters" → ∃ v, ρ x = some v ∧ calibVal c x = some v := by
  obtain ⟨h0, o1, s, st, o2, b, d, h1, h2, h3, h4, _, _, rfl⟩ := createOutline_inv h
  have acc := (verify_iff m hk).mp h0
  have hd := facDecls_inv declInv_nil h1
  simp only [List.nil_append] at hd
  have hi : FacInv ⟨o1, [], []⟩ := facInv_start hd
  obtain ⟨_, hkeys, hinv, _, hset⟩ := facAssigns_params hi h2
  have hp : o2.params = s.out.params := by
    have a := facBounds_spec h4
    have b := facStmts_spec _ h3
    rw [a.2.2.2.1, b.2.2.2.1]
  have hx := exec_spec hρ
  -- the keys of the outline's parameters
  have hmem : ∀ x, x ∈ s.out.params.keys ↔ m.DeclaredAs x "parameters" := by
    intro x
    rw [hkeys]
    have := hd.params x
    rw [ModelFile.DeclaredAs, ← this, ← Dict.get?_isSome_iff, Option.isSome_iff_exists]
  -- the definition under each key
  have hdef : ∀ x d, (x, d) ∈ s.out.params → ∃ pre e post, m.params = pre ++ (x, e) :: post ∧
      (∀ e', (x, e') ∉ post) ∧ d = some e := by
    intro x d hm
    have hdx : m.DeclaredAs x "parameters" := (hmem x).mp (List.mem_map.mpr ⟨(x, d), hm, rfl⟩)
    obtain ⟨pre, e, post, he, hl⟩ := last_assign (hall x hdx)
    refine ⟨pre, e, post, he, hl, ?_⟩
    have h5 := hset pre x e post he hl (by
      obtain ⟨q, hq⟩ := (hd.params x).mpr hdx
      simp only [ne_eq]; rw [hq]; simp)
    have h6 := Dict.get?_of_mem hinv.nodup hm
    rw [h5] at h6; exact (Option.some.inj h6).symm
  obtain ⟨defs, g1, g2, g3⟩ := outlineDefs_ok s.out.params (by
    intro x d hm hn
    obtain ⟨_, _, _, _, _, h⟩ := hdef x d hm
    rw [hn] at h; cases h)
  have hn : defs.keys.Nodup := by rw [g2]; exact hinv.nodup
  have gdef : ∀ x d, (x, d) ∈ defs → m.DeclaredAs x "parameters" ∧ ∃ pre e post,
      m.params = pre ++ (x, e) :: post ∧ (∀ e', (x, e') ∉ post) ∧ d = toDef e := by
    intro x d hm
    obtain ⟨e, he, hd'⟩ := g3 x d hm
    obtain ⟨pre, e', post, h1, h2, h3⟩ := hdef x (some e) he
    cases h3
    exact ⟨(hmem x).mp (List.mem_map.mpr ⟨(x, some e), he, rfl⟩), pre, e, post, h1, h2, hd'⟩
  -- the values of the file solve the definitions
  have hval : ∀ x d, (x, d) ∈ defs → ∃ e v, d = toDef e ∧ ρ x = some v ∧ Evals ops ρ e v ∧
      ∀ y ∈ e.vars, m.DeclaredAs y "parameters" := by
    intro x d hm
    obtain ⟨hdx, pre, e, post, a, b, c⟩ := gdef x d hm
    have hl := hlast pre x e post a hdx b
    obtain ⟨v, h5, h6⟩ := hx.2 pre x e post a b fun y hy => (hl y hy).2
    exact ⟨e, v, c, h5, h6, fun y hy => (hl y hy).1⟩
  classical
  let ρ' : String → Option V := fun x => if x ∈ defs.keys then ρ x else none
  have hsol : IsSol ops defs ρ' := by
    refine ⟨?_, ?_⟩
    · intro x
      simp only [ρ']
      by_cases hm : x ∈ defs.keys
      · obtain ⟨d, hd'⟩ := Dict.exists_get?_of_mem hm
        obtain ⟨e, v, _, hv, _⟩ := hval x d (Dict.mem_of_get? hd')
        simp [hm, hv]
      · simp [hm]
    · intro x d hd'
      obtain ⟨e, v, rfl, hv, he, hy⟩ := hval x d (Dict.mem_of_get? hd')
      refine ⟨v, ?_, ?_⟩
      · simp only [ρ', Dict.mem_keys_of_get? hd', if_true, hv]
      · rw [toDef_value]
        refine evals_congr he ?_
        intro y hm
        have : y ∈ defs.keys := by rw [g2]; exact (hmem y).mpr (hy y hm)
        simp only [ρ', this, if_true]
  obtain ⟨c, hc, hcv⟩ := C03_calibration_complete hn
    (by
      intro x d hm
      obtain ⟨hdx, pre, e, post, a, hb, rfl⟩ := gdef x d hm
      have hcmp := (acc.assignExpr pre x e post a).noCmp
      have hpv : e.pvars = [] := by
        obtain ⟨v, _, h6⟩ := hx.2 pre x e post a hb
          fun y hy => (hlast pre x e post a hdx hb y hy).2
        exact evals_no_pvars h6
      exact toDef_rhs e hcmp hpv)
    (by
      rintro x y ⟨d, hm, hy⟩
      obtain ⟨hdx, pre, e, post, a, b, rfl⟩ := gdef x d hm
      rw [toDef_vars] at hy
      rw [g2]
      exact (hmem y).mpr (hlast pre x e post a hdx b y hy).1)
    (by
      intro x ht
      have := transGen_lt (f := fun z => (m.params.reverse.map Prod.fst).idxOf z) (by
        rintro x y ⟨d, hm, hy⟩
        obtain ⟨hdx, pre, e, post, a, b, rfl⟩ := gdef x d hm
        rw [toDef_vars] at hy
        have hl := hlast pre x e post a hdx b y hy
        show (m.params.reverse.map Prod.fst).idxOf x < (m.params.reverse.map Prod.fst).idxOf y
        rw [a]
        exact rank_lt b hl.2.1 hl.2.2) ht
      exact Nat.lt_irrefl _ this)
    hsol
  refine ⟨c, ?_, ?_, ?_⟩
  · simp only [outlineCalib, hp, g1, bind, Except.bind, hc]
  · intro x
    rw [(solve_sol hn hc).1, g2]
    exact hmem x
  · intro x hdx
    have hm : x ∈ defs.keys := by rw [g2]; exact (hmem x).mpr hdx
    obtain ⟨d, hd'⟩ := Dict.exists_get?_of_mem hm
    obtain ⟨e, v, _, hv, _⟩ := hval x d (Dict.mem_of_get? hd')
    refine ⟨v, hv, ?_⟩
    rw [hcv]
    simp only [ρ', hm, if_true, hv]

/-- non-trivial case: `a = 1; a = 2; b = a + a` -/
example : ∃ (m : ModelFile Nat) (o : Outline Nat) (ρ : String → Option Nat),
    (∀ p ∈ m.decls, p.2 ∈ varTypes) ∧ createOutline natOps sq0 m = .ok o ∧
    Exec natOps noValues m.params ρ ∧ ρ "b" = some 4 ∧
    (∀ x, m.DeclaredAs x "parameters" → m.Assigned x) ∧
    (∀ pre x e post, m.params = pre ++ (x, e) :: post → m.DeclaredAs x "parameters" →
      (∀ e', (x, e') ∉ post) → ∀ y ∈ e.vars,
        m.DeclaredAs y "parameters" ∧ y ≠ x ∧ ∀ e', (y, e') ∉ post) := by
  refine ⟨sample [("a", .num 1), ("a", .num 2), ("b", .bin .add (.var "a") (.var "a"))] []
    none none none, _, _, sample_kinds _ _ _ _ _, rfl,
    .cons .num (.cons .num (.cons (.bin (.var rfl) (.var rfl) rfl) .nil)), rfl, ?_, ?_⟩
  · intro x hx
    simp [ModelFile.DeclaredAs, sample] at hx
    rcases hx with rfl | rfl
    · exact ⟨.num 1, by simp [sample]⟩
    · exact ⟨.bin .add (.var "a") (.var "a"), by simp [sample]⟩
  · intro pre x e post he _ hl y hy
    simp only [sample] at he
    rcases pre with _ | ⟨p1, _ | ⟨p2, _ | ⟨p3, pre⟩⟩⟩
    · simp at he; obtain ⟨⟨rfl, rfl⟩, rfl⟩ := he; simp [Expr.vars] at hy
    · simp at he; obtain ⟨_, ⟨rfl, rfl⟩, rfl⟩ := he; simp [Expr.vars] at hy
    · simp at he; obtain ⟨_, _, ⟨rfl, rfl⟩, rfl⟩ := he
      simp [Expr.vars] at hy; subst hy
      exact ⟨by simp [ModelFile.DeclaredAs, sample], by decide, by simp⟩
    · simp at he

/-! ### C26: equations -/

theorem residuals_eq (ss : List (Stmt V)) :
    residuals ss = (equations ss).map fun p => .bin .sub p.1 p.2 := by
  induction ss with
  | nil => rfl
  | cons s ss ih => cases s <;> simp [residuals, equations] <;> exact ih

/-- **C26.** The outline has one residual per equation, in file order; its value is the value of
the left side minus the value of the right side, and it has no value when one of them has none. -/
theorem C26_residuals {ops : Ops V} {sq : V → Except Err V} {m : ModelFile V} {o : Outline V}
    (h : createOutline ops sq m = .ok o) :
    o.exprs.length = (equations m.stmts).length ∧
    ∀ (i : Nat) l r, (equations m.stmts)[i]? = some (l, r) → ∃ e, o.exprs[i]? = some e ∧
      ∀ ρ v, Evals ops ρ e v ↔ ∃ a b, Evals ops ρ l a ∧ Evals ops ρ r b ∧ ops.bin .sub a b = .ok v := by
  obtain ⟨_, o1, s, st, o2, b, d, h1, h2, h3, h4, _, _, rfl⟩ := createOutline_inv h
  have hd := facDecls_inv declInv_nil h1
  obtain ⟨hs, _⟩ := facAssigns_params (facInv_start hd) h2
  have hst := facStmts_spec _ h3
  have hb := facBounds_spec h4
  have he : o2.exprs = (equations m.stmts).map fun p => .bin .sub p.1 p.2 := by
    rw [hb.2.2.2.2.2.2.2.2.2.1, hst.1, hs.2.2.2.2.2.1, hd.rest.2.1, residuals_eq]; rfl
  refine ⟨by show o2.exprs.length = _; rw [he]; simp, ?_⟩
  intro i l r hi
  refine ⟨.bin .sub l r, by show o2.exprs[i]? = _; rw [he]; simp [hi], ?_⟩
  intro ρ v
  constructor
  · intro h
    cases h with
    | bin ha hb hv => exact ⟨_, _, ha, hb, hv⟩
  · rintro ⟨a, b, ha, hb, hv⟩
    exact .bin ha hb hv

/-- **C26**, where equations come from: `l = r;` is read as the equation with sides `l`, `r`, and
`l;` as the one with right side 0. -/
theorem C26_statement (pc : PCfg V) (us vs rest : List (Tok V)) (l r : Expr V)
    (hl : Derives true pc us l) (hr : Derives true pc vs r) (hne : rest ≠ []) :
    modelStatement pc (us ++ .sym .equals :: vs ++ .sym .semi :: rest) = .ok (.eqn l r none, rest) ∧
    modelStatement pc (us ++ .sym .semi :: rest) = .ok (.eqn l (.num pc.zero) none, rest) := by
  have hnp : ∀ s, s = .pound ∨ s = .lbracket → ∀ ws : List (Tok V), isSym s (us ++ ws) = false := by
    intro s hs ws
    obtain ⟨o, g⟩ := hl
    have hne := gram_ne g
    cases us with
    | nil => exact absurd rfl hne
    | cons t us =>
      have := gram_toks g t (by simp)
      cases hq : isSym s (t :: us ++ ws) with
      | false => rfl
      | true =>
        obtain ⟨r, hr⟩ := isSym_inv hq
        simp at hr; obtain ⟨rfl, _⟩ := hr
        rcases hs with rfl | rfl <;> cases this
  have e1 : ∀ (t : List (Tok V)), isSym .equals (.sym .semi :: t) = false := fun t => rfl
  have e2 : ∀ (t : List (Tok V)), isSym .equals (.sym .equals :: t) = true := fun t => rfl
  have c1 := C11_complete pc true us (.sym .equals :: (vs ++ .sym .semi :: rest)) l hl
    (stops_sym _ (by decide) _)
  have c2 := C11_complete pc true us (.sym .semi :: rest) l hl (stops_sym _ (by decide) _)
  have c3 := C11_complete pc true vs (.sym .semi :: rest) r hr (stops_sym _ (by decide) _)
  simp only [readExpr, if_true] at c1 c2 c3
  constructor
  · rw [List.append_assoc, List.cons_append]
    unfold modelStatement
    rw [hnp _ (Or.inl rfl), hnp _ (Or.inr rfl)]
    simp only [Bool.false_eq_true, if_false, modelExpression, c1, Out.ok_bind, e2, if_true]
    rw [adv_cons _ (by simp)]
    simp only [Out.ok_bind, c3, eatSym_self _ hne]
  · unfold modelStatement
    rw [hnp _ (Or.inl rfl), hnp _ (Or.inr rfl)]
    simp only [Bool.false_eq_true, if_false, modelExpression, c2, Out.ok_bind, e1, eatSym_self _ hne]

/-- non-trivial case: two equations around a local definition -/
example : ∃ (m : ModelFile Nat) (o : Outline Nat), createOutline natOps sq0 m = .ok o ∧
    (equations m.stmts)[1]? = some (.var "x", .num 0) :=
  ⟨sample [("a", .num 1)] [.eqn (.pvar "y" 1) (.var "a") none, .loc "z" (.var "a"),
    .eqn (.var "x") (.num 0) none] none none none, _, rfl, rfl⟩

example : ∃ us : List (Tok Nat), Derives true natPC us (.pvar "y" (-1)) := by
  have := C12_print_parse natPC true id (fun _ _ => rfl) (.pvar "y" (-1)) rfl [.sym .semi]
    (stops_sym _ (by decide) _)
  obtain ⟨o, _, g⟩ := print_gram (pc := natPC) (m := true) (lit := id) (fun _ _ => rfl)
    (.pvar "y" (-1) : Expr Nat) rfl .expr true (by simp)
  exact ⟨_, o, g⟩

/-! ### C27: incidence -/

/-- **C27.** The incidence recorded in the outline and the incidence the model object reads from
the outline's equations both hold, for each endogenous variable and each period, exactly when the
variable occurs at that period in an equation. -/
theorem C27_incidence_exact {ops : Ops V} {sq : V → Except Err V} {m : ModelFile V} {o : Outline V}
    (hk : ∀ p ∈ m.decls, p.2 ∈ varTypes) (h : createOutline ops sq m = .ok o) :
    (∀ x, x ∈ o.endog ↔ m.DeclaredAs x "var") ∧
    (∀ x, x ∈ o.endog → ∃ ps, o.leadLags.get? x = some ps ∧
      ∀ p, p ∈ ps ↔ ∃ l r, (l, r) ∈ equations m.stmts ∧ (OccursAt x p l ∨ OccursAt x p r)) ∧
    ∃ d, readLeadLags o.endog o.exprs = .ok d ∧
      ∀ x, x ∈ o.endog → ∃ ps, d.get? x = some ps ∧
      ∀ p, p ∈ ps ↔ ∃ l r, (l, r) ∈ equations m.stmts ∧ (OccursAt x p l ∨ OccursAt x p r) := by
  obtain ⟨h0, o1, s, st, o2, b, d, h1, h2, h3, h4, _, _, rfl⟩ := createOutline_inv h
  have acc := (verify_iff m hk).mp h0
  have hd := facDecls_inv declInv_nil h1
  simp only [List.nil_append] at hd
  obtain ⟨hs, _⟩ := facAssigns_params (facInv_start hd) h2
  obtain ⟨s1, s2, s3, _, s5, _⟩ := facStmts_spec _ h3
  have hb := facBounds_spec h4
  have hen : o2.endog = (m.decls.filter fun p => p.2 = "var").map Prod.fst := by
    rw [hb.2.2.2.2.1, s5, hs.1, hd.endog]
  have hmem : ∀ x, x ∈ o2.endog ↔ m.DeclaredAs x "var" := by
    intro x
    rw [hen]
    simp [ModelFile.DeclaredAs]
  have he : o2.exprs = residuals m.stmts := by
    rw [hb.2.2.2.2.2.2.2.2.2.1, s1, hs.2.2.2.2.2.1, hd.rest.2.1]; rfl
  have hocc : ∀ x p, (∃ e ∈ residuals m.stmts, OccursAt x p e) ↔
      ∃ l r, (l, r) ∈ equations m.stmts ∧ (OccursAt x p l ∨ OccursAt x p r) := by
    intro x p
    rw [residuals_eq]
    simp only [List.mem_map, Prod.exists]
    constructor
    · rintro ⟨_, ⟨l, r, hm, rfl⟩, ho⟩
      refine ⟨l, r, hm, ?_⟩
      simp only [OccursAt, Expr.vars, Expr.pvars, List.mem_append] at ho ⊢
      rcases ho with ⟨a, b | b⟩ | b | b
      · exact Or.inl (Or.inl ⟨a, b⟩)
      · exact Or.inr (Or.inl ⟨a, b⟩)
      · exact Or.inl (Or.inr b)
      · exact Or.inr (Or.inr b)
    · rintro ⟨l, r, hm, ho⟩
      refine ⟨_, ⟨l, r, hm, rfl⟩, ?_⟩
      simp only [OccursAt, Expr.vars, Expr.pvars, List.mem_append] at ho ⊢
      rcases ho with (⟨a, b⟩ | b) | (⟨a, b⟩ | b)
      · exact Or.inl ⟨a, Or.inl b⟩
      · exact Or.inr (Or.inl b)
      · exact Or.inl ⟨a, Or.inr b⟩
      · exact Or.inr (Or.inr b)
  have hll : o2.leadLags = st.1.leadLags := hb.2.2.2.2.2.1
  have hstart : ∀ x, m.DeclaredAs x "var" → s.out.leadLags.get? x = some [] := by
    intro x hx
    have : s.out.leadLags = o1.leadLags := hs.2.1
    rw [this, hd.ll]
    exact if_pos hx
  refine ⟨hmem, ?_, ?_⟩
  · intro x hx
    have hx' := hstart x ((hmem x).mp hx)
    obtain ⟨ps, hps⟩ := (s2 x).mpr ⟨[], hx'⟩
    refine ⟨ps, by show o2.leadLags.get? x = _; rw [hll]; exact hps, ?_⟩
    intro p
    have := s3 x p
    rw [hocc] at this
    have hrec : Rec st.1.leadLags x p ↔ p ∈ ps := by
      constructor
      · rintro ⟨s, a, b⟩; rw [hps] at a; cases a; exact b
      · intro hp; exact ⟨ps, hps, hp⟩
    rw [hrec] at this
    rw [this]
    constructor
    · rintro (⟨s', a, b⟩ | ⟨_, b⟩)
      · rw [hx'] at a; cases a; simp at b
      · exact b
    · intro hb; exact Or.inr ⟨⟨[], hx'⟩, hb⟩
  · have hcmp : ∀ e ∈ residuals m.stmts, e.hasCmp = false := by
      intro e hm
      rw [residuals_eq] at hm
      simp only [List.mem_map, Prod.exists] at hm
      obtain ⟨l, r, hm, rfl⟩ := hm
      have : ∃ tags, Stmt.eqn l r tags ∈ m.stmts := by
        clear * - hm
        generalize m.stmts = ss at hm
        induction ss with
        | nil => simp [equations] at hm
        | cons s ss ih =>
          cases s with
          | loc x e =>
            obtain ⟨t, h⟩ := ih hm
            exact ⟨t, List.mem_cons_of_mem _ h⟩
          | eqn l' r' t =>
            simp only [equations, List.mem_cons] at hm
            rcases hm with hm | hm
            · cases hm; exact ⟨t, by simp⟩
            · obtain ⟨t, h⟩ := ih hm
              exact ⟨t, List.mem_cons_of_mem _ h⟩
      obtain ⟨tags, hm⟩ := this
      obtain ⟨pre, post, hpp⟩ := List.append_of_mem hm
      have a1 := (acc.eqnExpr pre l r tags post hpp l (Or.inl rfl)).noCmp
      have a2 := (acc.eqnExpr pre l r tags post hpp r (Or.inr rfl)).noCmp
      simp [Expr.hasCmp, a1, a2]
    obtain ⟨d', g1, g2, g3⟩ := readLeadLags_spec o2.endog (residuals m.stmts) hcmp
    refine ⟨d', by show readLeadLags o2.endog o2.exprs = _; rw [he]; exact g1, ?_⟩
    intro x hx
    obtain ⟨ps, hps⟩ := Dict.exists_get?_of_mem ((g2 x).mpr hx)
    refine ⟨ps, hps, ?_⟩
    intro p
    rw [← hocc]
    have := g3 x p
    constructor
    · intro hp; exact (this.mp ⟨ps, hps, hp⟩).2
    · intro hp
      obtain ⟨s', a, b⟩ := this.mpr ⟨hx, hp⟩
      rw [hps] at a; cases a; exact b

/-- non-trivial case: a variable at two periods, another at one -/
example : ∃ (m : ModelFile Nat) (o : Outline Nat), (∀ p ∈ m.decls, p.2 ∈ varTypes) ∧
    createOutline natOps sq0 m = .ok o ∧
    readLeadLags o.endog o.exprs = .ok [("y", [1, 0]), ("x", [-1])] :=
  ⟨sample [("a", .num 1)] [.eqn (.pvar "y" 1) (.var "a") none,
    .eqn (.var "y") (.pvar "x" (-1)) none] none none none, _, sample_kinds _ _ _ _ _, rfl, rfl⟩

#print axioms C23_initial_terminal_partial
#print axioms C23_histval_needs_endval
#print axioms C23_histval_is_endval
#print axioms C25_last_assignment_false
#print axioms C25_execution_partial
#print axioms C26_residuals
#print axioms C26_statement
#print axioms C27_incidence_exact

end Pynare
