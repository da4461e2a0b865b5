import Verif.Examples.Reading
/-!
# C118 – C123: models read from files

`fromText r lang name text` – the model made from a text; `fromPath r fs a lang` – the one made from what the file
system `fs` has at the path `a`.  `FileOf` is the grammar of model files, `Written` relates tokens to texts, `Exec` is
the execution of assignments from top to bottom.
-/

namespace Pynare

variable {V SS S : Type}

/-! ### C118: what a model read from a file is -/

/-- **C118**, the part that holds: let a text be a way to write a file of the grammar in which parameters and equations
are plain and the assignments can be executed.  If a model is made from it, then with `σ` the values after executing
assignments and local definitions, the model has the variables of the file in their order, the values of parameters
and local variables, one steady and one dynamic residual for each equation with the value of left minus right, and the
boundary values.  What is excluded: a parameter whose last assignment uses names that are not parameters or change
later (C25), offsets other than one (C29, C33), equations with names that are not declared (C122). -/
theorem C118_text_partial [Zero V] [One V] {r : ReadEnv V SS S} (ok : CharOk r.cfg) {us : List (Tok V)}
    {mf : ModelFile V} (hf : FileOf r.pc us mf) {text : List Char} (hw : Written r.cfg us text [])
    {lang name : String} {md : MState V SS S} (h : fromText r lang name text = .ok md) {ρ : String → Option V}
    (hρ : Exec r.env.ops noValues mf.params ρ) (hp : PlainParams mf) (he : PlainEquations mf) :
    lang = "dynare" ∧ md.name = name ∧
      ∃ σ, FileVals r.env.ops mf ρ σ ∧ Represents r.env.ops mf ρ σ md := by
  obtain ⟨hl, o, h1, h2⟩ := fromText_inv ok hf hw h
  exact ⟨hl, fromOutline_name h2, outline_represents (text_kinds ok hf hw) h1 hρ hp he h2⟩

/-- **C118 for the shocks**, the part that holds: the covariance matrix of the model – the first time it is asked for –
is that of the shocks block: the stated variances (squares of standard deviations), one for a shock without statement,
correlations times the square root of the product of the variances, covariances, and zero elsewhere.  Excluded as in
C24: more than one statement about the variance of a shock or about pairs with it, correlations of shocks without
variance. -/
theorem C118_shocks_partial [Zero V] [One V] [Mul V] {r : ReadEnv V SS S} (ok : CharOk r.cfg) {us : List (Tok V)}
    {mf : ModelFile V} (hf : FileOf r.pc us mf) {text : List Char} (hw : Written r.cfg us text [])
    {lang name : String} {md : MState V SS S} (h : fromText r lang name text = .ok md) {ρ : String → Option V}
    (hρ : Exec r.env.ops noValues mf.params ρ) {b : Shocks V} (hb : mf.actions.shocks = some b)
    (hp : PlainShocks (mf.names "varexo") b.shocks)
    (hval : ∀ s ∈ b.shocks, ∀ x, s.isVarOf x → ∃ v, SetsVar r.env.ops r.sq ρ s x v) :
    ∃ sig, md.readSigma r.env = ({ md with sigma := some sig }, .ok sig) ∧
      (∀ (i : Nat) x v, (mf.names "varexo")[i]? = some x → VarOf r.env.ops r.sq ρ b.shocks x v → sig i i = v) ∧
      (∀ (i j : Nat) x y e c vx vy, (mf.names "varexo")[i]? = some x → (mf.names "varexo")[j]? = some y →
        Shock.corr x y e ∈ b.shocks → Evals r.env.ops ρ e c → VarOf r.env.ops r.sq ρ b.shocks x vx →
        VarOf r.env.ops r.sq ρ b.shocks y vy →
        sig i j = r.env.sqrt (vx * vy) * c ∧ sig j i = r.env.sqrt (vx * vy) * c) ∧
      (∀ (i j : Nat) x y e c, (mf.names "varexo")[i]? = some x → (mf.names "varexo")[j]? = some y →
        Shock.cov x y e ∈ b.shocks → Evals r.env.ops ρ e c → sig i j = c ∧ sig j i = c) ∧
      (∀ (i j : Nat) x y, i ≠ j → (mf.names "varexo")[i]? = some x → (mf.names "varexo")[j]? = some y →
        (∀ s ∈ b.shocks, ¬ s.isPair x y ∧ ¬ s.isPair y x) → sig i j = 0) := by
  obtain ⟨_, o, h1, h2⟩ := fromText_inv ok hf hw h
  have ho := outline_of (text_kinds ok hf hw) h1 hρ
  rw [← ho.stoch] at hp ⊢
  obtain ⟨sig, hs, hrest⟩ := C24_model_file_partial (sqrt := r.env.sqrt) h1 hρ hb hp hval
  obtain ⟨_, _, _, _, _, _, _, _, _, _, hbuild⟩ := fromOutline_inv h2
  obtain ⟨hfr, ha, hn, _⟩ := create_fresh hbuild
  rw [← fromOutline_stoch h2] at hs
  exact ⟨sig, readSigma_fresh hfr ha hn hs, hrest⟩

/-- what the assignments of the small file do -/
theorem exSmall_exec : Exec intOps noValues exSmallFile.params (fun y => if "a" = y then some 2 else noValues y) :=
  .cons .num .nil

/-- what the small file's names stand for in its equations -/
def exSmallScope : String → Option Int := fun y => if "b" = y then some 3 else
  exSmallFile.paramVals (fun y => if "a" = y then some 2 else noValues y) y

theorem exSmall_plainParams : PlainParams exSmallFile where
  all x h := by
    simp only [ModelFile.DeclaredAs, exSmallFile, List.mem_cons, Prod.mk.injEq, List.not_mem_nil, or_false] at h
    rcases h with ⟨_, h⟩ | ⟨_, h⟩ | ⟨rfl, _⟩
    · simp at h
    · simp at h
    · exact ⟨.num 2, by simp [exSmallFile]⟩
  last pre x e post h _ _ y hy := by
    cases pre with
    | nil => simp [exSmallFile] at h; obtain ⟨⟨rfl, rfl⟩, rfl⟩ := h; simp [Expr.vars] at hy
    | cons p pre => simp [exSmallFile] at h

theorem exSmall_plainEquations : PlainEquations exSmallFile where
  vars l r h x hx := by
    simp only [exSmallFile, equations, List.mem_cons, Prod.mk.injEq, List.not_mem_nil, or_false] at h
    obtain ⟨rfl, rfl⟩ := h
    simp only [Expr.vars, List.mem_append, List.mem_cons, List.not_mem_nil, or_false] at hx
    simp only [ModelFile.DeclaredAs, exSmallFile, localsOf]
    rcases hx with rfl | rfl | rfl <;> simp
  pvars l r h x o hx := by
    simp only [exSmallFile, equations, List.mem_cons, Prod.mk.injEq, List.not_mem_nil, or_false] at h
    obtain ⟨rfl, rfl⟩ := h
    simp [Expr.pvars] at hx
    simp [ModelFile.DeclaredAs, exSmallFile, hx]

theorem exSmall_vals : FileVals intOps exSmallFile (fun y => if "a" = y then some 2 else noValues y) exSmallScope where
  preamble := exSmall_exec
  model := .cons (v := 3) (.bin (.var (v := 2) rfl) .num rfl) .nil

/-- the hypotheses of `C118_text_partial` and `C118_shocks_partial` hold of the small file, and what they say is that
`b` is 3, the residual of `y = b*y(-1) + e` is 0 at `y(-1) = 1`, `y = 4`, `e = 1`, and the variance is 16 -/
example : ∃ md sig, fromText fileRead "dynare" "small" (exText exSmall) = .ok md ∧ md.scope "b" = some 3 ∧
    md.endog.map Endog.initial = [some 2] ∧ md.steady.map (fun f => f [5]) = [.ok (-10)] ∧
    md.dynamic.map (fun f => f [1, 4, 1]) = [.ok 0] ∧ (md.readSigma toyEnv2).2 = .ok sig ∧ sig 0 0 = 16 := by
  obtain ⟨o, md, sig, h1, h2, h⟩ : ∃ o md sig, createOutline intOps fileRead.sq exSmallFile = .ok o ∧
      fromOutline toyEnv2 o "dynare" "small" = .ok md ∧ md.scope "b" = some 3 ∧
      md.endog.map Endog.initial = [some 2] ∧ md.steady.map (fun f => f [5]) = [.ok (-10)] ∧
      md.dynamic.map (fun f => f [1, 4, 1]) = [.ok 0] ∧ (md.readSigma toyEnv2).2 = .ok sig ∧ sig 0 0 = 16 :=
    ⟨_, _, _, rfl, rfl, rfl, rfl, rfl, rfl, rfl, rfl⟩
  refine ⟨md, sig, ?_, h⟩
  rw [fromText_run charOk_file exSmall_file exSmall_written (r := fileRead) h1,
    show fileRead.env = toyEnv2 from rfl, h2]
  rfl

example : PlainShocks (exSmallFile.names "varexo") [(Shock.stderr "e" (.num 4) : Shock Int)] ∧
    ∀ s ∈ [(Shock.stderr "e" (.num 4) : Shock Int)], ∀ x, s.isVarOf x → ∃ v, SetsVar intOps fileRead.sq
      (fun y => if "a" = y then some 2 else noValues y) s x v := by
  have hone : ∀ (pre : List (Shock Int)) s post, [Shock.stderr "e" (.num 4)] = pre ++ s :: post → post = [] := by
    intro pre s post h
    cases pre with
    | nil => simp at h; simp [h.2]
    | cons p pre => simp at h
  refine ⟨⟨?_, ?_, ?_, ?_, ?_⟩, ?_⟩
  · intro pre s post h x _ t ht; rw [hone pre s post h] at ht; simp at ht
  · intro pre s post h x _ t ht; rw [hone pre s post h] at ht; simp at ht
  · intro s hs x hx; simp at hs; subst hs; simp [Shock.isPairOf] at hx
  · intro s hs x y hx; simp at hs; subst hs; simp [Shock.isPair] at hx
  · intro s hs x y hx; simp at hs; subst hs; simp [Shock.isPair] at hx
  · intro s hs x hx
    simp at hs; subst hs
    simp [Shock.isVarOf] at hx; subst hx
    exact ⟨16, .stderr .num rfl⟩

/-! ### C119: every well-formed file can be read -/

/-- **C119.** Let a file satisfy `Readable`: it passes the semantic check, its expressions have values, names are legal
and distinct.  However it is written, whether a model is made is decided by the computation of the state space alone:
if that succeeds the model is made, and is what the file says; if it raises, so does reading. -/
theorem C119_readable [Zero V] [One V] {r : ReadEnv V SS S} (ok : CharOk r.cfg) {us : List (Tok V)}
    {mf : ModelFile V} (hf : FileOf r.pc us mf) {text : List Char} (hw : Written r.cfg us text [])
    {ρ σ : String → Option V} (hr : Readable r.env.ops r.sq r.env.okName mf ρ σ) (name : String) :
    ∃ endog idx steady dyn,
      (∀ ss, r.env.mkSS endog (mf.names "varexo").length idx steady dyn = .ok ss → ∃ md, fromText r "dynare" name text = .ok md ∧
        md.name = name ∧ md.statespace = ss ∧ md.endog = endog ∧ md.indexes = idx ∧ md.steady = steady ∧
        md.dynamic = dyn ∧ Represents r.env.ops mf ρ σ md) ∧
      ∀ e, r.env.mkSS endog (mf.names "varexo").length idx steady dyn = .error e → fromText r "dynare" name text = .err e := by
  obtain ⟨o, endog, idx, steady, dyn, f, h1, h2, h3⟩ := fromOutline_decided hr name
  refine ⟨endog, idx, steady, dyn, fun ss hss => ?_, fun e he => ?_⟩
  · have hm : fromOutline r.env o "dynare" name = .ok (f ss) := by rw [h2, hss]; rfl
    obtain ⟨a1, a2, a3, a4, a5, a6⟩ := h3 ss
    obtain ⟨σ', hv, hrep⟩ := outline_represents (text_kinds ok hf hw) h1 hr.vals.preamble hr.params hr.plain hm
    rw [exec_unique hv.model hr.vals.model] at hrep
    exact ⟨f ss, by rw [fromText_run ok hf hw h1, hm]; rfl, a2, a1, a3, a4, a5, a6, hrep⟩
  · rw [fromText_run ok hf hw h1, h2, he]; rfl

/-- the small file is readable -/
theorem exSmall_readable : Readable intOps fileRead.sq (fun _ => true) exSmallFile
    (fun y => if "a" = y then some 2 else noValues y) exSmallScope where
  accepted := (verify_iff exSmallFile (by decide)).mp (by decide +kernel)
  kinds x k h := by
    simp only [ModelFile.DeclaredAs, exSmallFile, List.mem_cons, Prod.mk.injEq, List.not_mem_nil, or_false] at h
    rcases h with ⟨_, rfl⟩ | ⟨_, rfl⟩ | ⟨_, rfl⟩ <;> simp
  vals := exSmall_vals
  params := exSmall_plainParams
  plain := exSmall_plainEquations
  occurs x h := by
    simp [ModelFile.DeclaredAs, exSmallFile] at h
    subst h
    exact ⟨_, _, 0, List.mem_cons_self, .inl (.inl ⟨rfl, by simp [Expr.vars]⟩)⟩
  bounds b hb x e hx := by
    simp only [exSmallFile, Option.some.injEq, reduceCtorEq, or_false] at hb
    subst hb
    simp at hx
    obtain ⟨rfl, rfl⟩ := hx
    exact ⟨2, .var rfl⟩
  hist h := absurd rfl h
  shocks b hb s hs := by
    simp only [exSmallFile, Option.some.injEq] at hb
    subst hb
    simp at hs
    subst hs
    refine ⟨⟨4, 16, .num, rfl⟩, ?_⟩
    intro x hx
    simp [ModelFile.DeclaredAs, exSmallFile] at hx
  legal x := ⟨fun _ => ⟨rfl, rfl, rfl⟩, fun _ => rfl⟩
  apart x y hx hy := by
    simp only [ModelFile.DeclaredAs, exSmallFile, List.mem_cons, Prod.mk.injEq, List.not_mem_nil, or_false] at hx hy
    have hx : x = "y" := by rcases hx with h | h | h <;> simp_all
    have hy : y = "y" ∨ y = "e" := by simp at hy; exact hy
    subst hx
    rcases hy with rfl | rfl <;> decide

/-! ### C120: local variables and later changes of parameters -/

/-- **C120 is false**, in general: whatever is done to a model read from a file, a local variable keeps the value it
had when the file was read, also when the parameters it is defined by change. -/
theorem C120_frozen [Zero V] [One V] [Mul V] {r : ReadEnv V SS S} (ok : CharOk r.cfg) {us : List (Tok V)}
    {mf : ModelFile V} (hf : FileOf r.pc us mf) {text : List Char} (hw : Written r.cfg us text [])
    {lang name : String} {md md' : MState V SS S} (h : fromText r lang name text = .ok md) {ρ σ : String → Option V}
    (hp : PlainParams mf) (hv : FileVals r.env.ops mf ρ σ) (hr : Reaches r.env md md') :
    ∀ x e, (x, e) ∈ localsOf mf.stmts → md'.scope x = σ x := by
  intro x e hx
  obtain ⟨_, o, h1, h2⟩ := fromText_inv ok hf hw h
  obtain ⟨h3, h4⟩ := scope_read (text_kinds ok hf hw) h1 hv.preamble hp h2
  have h5 := locals_frozen (text_kinds ok hf hw) h1 hv.preamble h2 hr
  obtain ⟨v, h6⟩ := h4 x e hx
  rw [← exec_unique h3 hv.model]
  simp [MState.scope, scopeOf, h5, h6]

/-- **C120 is false**: in the small model `b` is defined as `a + 1` with `a = 2`.  After setting `a` to 5, nothing is
raised, and `b` is still 3. -/
theorem C120_false : ∃ md md', fromText fileRead "dynare" "small" (exText exSmall) = .ok md ∧
    md.addParams toyEnv2 [("a", .num 5)] = (md', none) ∧ md'.scope "a" = some 5 ∧
    ("b", .bin .add (.var "a") (.num 1)) ∈ localsOf exSmallFile.stmts ∧ md'.scope "b" = some 3 := by
  obtain ⟨o, md, md', h1, h2, h⟩ : ∃ o md md', createOutline intOps fileRead.sq exSmallFile = .ok o ∧
      fromOutline toyEnv2 o "dynare" "small" = .ok md ∧ md.addParams toyEnv2 [("a", .num 5)] = (md', none) ∧
      md'.scope "a" = some 5 ∧ ("b", .bin .add (.var "a") (.num 1)) ∈ localsOf exSmallFile.stmts ∧
      md'.scope "b" = some 3 :=
    ⟨_, _, _, rfl, rfl, rfl, rfl, List.mem_cons_self, rfl⟩
  refine ⟨md, md', ?_, h⟩
  rw [fromText_run charOk_file exSmall_file exSmall_written (r := fileRead) h1,
    show fileRead.env = toyEnv2 from rfl, h2]
  rfl

/-! ### C121: what a local variable can be defined by -/

/-- **C121**, the part that holds: in a file that is read, every local variable is defined by parameters and local
variables above it alone, without leads and lags. -/
theorem C121_locals_partial [Zero V] [One V] {r : ReadEnv V SS S} (ok : CharOk r.cfg) {us : List (Tok V)}
    {mf : ModelFile V} (hf : FileOf r.pc us mf) {text : List Char} (hw : Written r.cfg us text [])
    {lang name : String} {md : MState V SS S} (h : fromText r lang name text = .ok md) {ρ : String → Option V}
    (hρ : Exec r.env.ops noValues mf.params ρ) {pre : List (String × Expr V)} {x : String} {e : Expr V}
    {post : List (String × Expr V)} (hl : localsOf mf.stmts = pre ++ (x, e) :: post) :
    e.pvars = [] ∧ ∀ y ∈ e.vars, mf.DeclaredAs y "parameters" ∨ ∃ e', (y, e') ∈ pre := by
  obtain ⟨_, o, h1, h2⟩ := fromText_inv ok hf hw h
  obtain ⟨_, ls, _, _, _, h3, _⟩ := fromOutline_inv h2
  have hx := (outline_of (text_kinds ok hf hw) h1 hρ).locals (localDefs_ok h3).2.1
  rw [hl] at hx
  obtain ⟨ρ1, v, h4, h5⟩ := exec_split hx
  refine ⟨evals_pvars h5, fun y hy => ?_⟩
  rcases exec_support h4 y (evals_vars h5 y hy) with h | h
  · left
    simp only [ModelFile.paramVals, ne_eq, ite_eq_right_iff, not_forall] at h
    exact h.1
  · exact .inr h

/-- hypotheses met: the small file -/
example : localsOf exSmallFile.stmts = [] ++ ("b", .bin .add (.var "a") (.num 1)) :: [] ∧
    Exec intOps noValues exSmallFile.params (fun y => if "a" = y then some 2 else noValues y) :=
  ⟨rfl, exSmall_exec⟩

/-- **C121 is false**: a file that passes the semantic check and defines a local variable by an endogenous one,
`# b = y + a`, cannot be read: `TypeError`. -/
theorem C121_false : FileOf fileRead.pc (exToks exLocal) exLocalFile ∧
    Written fileRead.cfg (exToks exLocal) (exText exLocal) [] ∧ Accepted exLocalFile ∧
    exLocalFile.DeclaredAs "y" "var" ∧
    fromText fileRead "dynare" "m" (exText exLocal) = .err .typeError := by
  refine ⟨exLocal_file, exLocal_written, (verify_iff exLocalFile (by decide)).mp (by decide +kernel), by
    simp [ModelFile.DeclaredAs, exLocalFile], ?_⟩
  have h1 : createOutline intOps fileRead.sq exLocalFile = .error .typeError := rfl
  rw [fromText, readModel_text charOk_file exLocal_file exLocal_written (r := fileRead)]
  rw [show fileRead.env.ops = intOps from rfl, h1]
  rfl

/-! ### C122: numbers that are assigned but not declared -/

/-- **C122 is false**, in general: in a model read from a file, a name that is neither a declared parameter nor a local
variable has no value in the equations, also if the file assigns one. -/
theorem C122_no_value [Zero V] [One V] {r : ReadEnv V SS S} (ok : CharOk r.cfg) {us : List (Tok V)}
    {mf : ModelFile V} (hf : FileOf r.pc us mf) {text : List Char} (hw : Written r.cfg us text [])
    {lang name : String} {md : MState V SS S} (h : fromText r lang name text = .ok md) {ρ : String → Option V}
    (hρ : Exec r.env.ops noValues mf.params ρ) (hp : PlainParams mf) {y : String}
    (hd : ¬ mf.DeclaredAs y "parameters") (hl : ∀ e, (y, e) ∉ localsOf mf.stmts) : md.scope y = none := by
  obtain ⟨_, o, h1, h2⟩ := fromText_inv ok hf hw h
  obtain ⟨h3, _⟩ := scope_read (text_kinds ok hf hw) h1 hρ hp h2
  by_contra hc
  rcases exec_support h3 y hc with h | ⟨e, h⟩
  · apply h
    simp only [ModelFile.paramVals]
    exact if_neg hd
  · exact hl e h

/-- **C122 is false**: the file `var y; varexo e; a = 2; model; y = a + e; ...` passes the semantic check and is read
without exception.  Its steady residual is zero at `y = 0`, as if `a` were zero; its dynamic residual raises
`KeyError` for every argument. -/
theorem C122_false : FileOf fileRead.pc (exToks exUndecl) exUndeclFile ∧
    Written fileRead.cfg (exToks exUndecl) (exText exUndecl) [] ∧ Accepted exUndeclFile ∧
    ∃ md f g, fromText fileRead "dynare" "m" (exText exUndecl) = .ok md ∧ md.steady = [f] ∧ f [0] = .ok 0 ∧
      f [2] = .ok 2 ∧ md.dynamic = [g] ∧ ∀ y e, g [y, e] = .error .keyError := by
  refine ⟨exUndecl_file, exUndecl_written, (verify_iff exUndeclFile (by decide)).mp (by decide +kernel), ?_⟩
  obtain ⟨o, md, f, g, h1, h2, h⟩ : ∃ o md f g, createOutline intOps fileRead.sq exUndeclFile = .ok o ∧
      fromOutline toyEnv2 o "dynare" "m" = .ok md ∧ md.steady = [f] ∧ f [0] = .ok 0 ∧
      f [2] = .ok 2 ∧ md.dynamic = [g] ∧ ∀ y e, g [y, e] = .error .keyError :=
    ⟨_, _, _, _, rfl, rfl, rfl, rfl, rfl, rfl, fun _ _ => rfl⟩
  refine ⟨md, f, g, ?_, h⟩
  rw [fromText_run charOk_file exUndecl_file exUndecl_written (r := fileRead) h1,
    show fileRead.env = toyEnv2 from rfl, h2]
  rfl

/-- the hypotheses of `C122_no_value` hold of that file and `a` -/
example : Exec intOps noValues exUndeclFile.params (fun y => if "a" = y then some 2 else noValues y) ∧
    PlainParams exUndeclFile ∧ ¬ exUndeclFile.DeclaredAs "a" "parameters" ∧
    (∀ e, ("a", e) ∉ localsOf exUndeclFile.stmts) ∧ exUndeclFile.Assigned "a" := by
  have hno : ∀ x, ¬ exUndeclFile.DeclaredAs x "parameters" := fun x h => by
    simp [ModelFile.DeclaredAs, exUndeclFile] at h
  exact ⟨.cons .num .nil, ⟨fun x h => absurd h (hno x), fun _ x _ _ _ h => absurd h (hno x)⟩, hno "a",
    by simp [localsOf, exUndeclFile], .num 2, by simp [exUndeclFile]⟩

/-! ### C123: paths -/

/-- **C123**, the part that holds: the string `dir/base.ext`, or `base.ext`, of an existing file gives the model made
from the contents of the file, named `base`. -/
theorem C123_string_partial [Zero V] [One V] (r : ReadEnv V SS S) (fs : String → Option (List Char)) (lang : String)
    (pre base ext : String) (text : List Char) (hpre : pre = "" ∨ ∃ dir, pre = dir ++ "/")
    (hb : '/' ∉ base.toList ∧ '.' ∉ base.toList) (he : '/' ∉ ext.toList)
    (h : fs (pre ++ base ++ "." ++ ext) = some text) :
    fromPath r fs (.str (pre ++ base ++ "." ++ ext)) lang = fromText r lang base text := by
  have h1 : lastPart (pre ++ base ++ "." ++ ext) = base ++ "." ++ ext := by
    refine String.toList_inj.mp ?_
    have hs : ∀ c ∈ (base ++ "." ++ ext).toList.reverse, decide (c ≠ '/') = true := by
      intro c hc
      simp only [List.mem_reverse, String.toList_append, List.mem_append] at hc
      rcases hc with (hc | hc) | hc
      · simp; rintro rfl; exact hb.1 hc
      · simp at hc; subst hc; decide
      · simp; rintro rfl; exact he hc
    have hsplit : (pre ++ base ++ "." ++ ext).toList.reverse =
        (base ++ "." ++ ext).toList.reverse ++ pre.toList.reverse := by simp
    have hp : pre.toList.reverse.takeWhile (fun c => decide (c ≠ '/')) = [] := by
      rcases hpre with rfl | ⟨dir, rfl⟩ <;> simp
    rw [lastPart, hsplit, List.takeWhile_append_of_pos hs, hp]
    simp
  have h2 : firstPart (base ++ "." ++ ext) = base := by
    refine String.toList_inj.mp ?_
    have hs : ∀ c ∈ base.toList, decide (c ≠ '.') = true := by
      intro c hc; simp; rintro rfl; exact hb.2 hc
    have hsplit : (base ++ "." ++ ext).toList = base.toList ++ '.' :: ext.toList := by simp
    rw [firstPart, hsplit, List.takeWhile_append_of_pos hs]
    simp
  simp only [fromPath, pathText, PathArg.text, h, h1, h2]

/-- a case -/
example : fromPath fileRead (fun p => if p = "models/small.mod" then some (exText exSmall) else none)
    (.str "models/small.mod") "dynare" = fromText fileRead "dynare" "small" (exText exSmall) :=
  C123_string_partial fileRead _ "dynare" "models/" "small" "mod" _ (.inr ⟨"models", rfl⟩) (by decide) (by decide) rfl

/-- **C123**, the part that holds: the name of an example gives that example, if there is no file of that name and the
working directory is the one pynare's directory is in. -/
theorem C123_example_partial [Zero V] [One V] (r : ReadEnv V SS S) (fs : String → Option (List Char)) (lang k p : String)
    (text : List Char) (hk : (k, p) ∈ exampleModels) (h : fs k = none) (hp : fs p = some text) :
    fromPath r fs (.str k) lang = fromText r lang k text := by
  have hg : getExample k = .ok p ∧ firstPart (lastPart k) = k := by
    simp only [exampleModels, List.mem_cons, Prod.mk.injEq, List.not_mem_nil, or_false] at hk
    rcases hk with ⟨rfl, rfl⟩ | ⟨rfl, rfl⟩ | ⟨rfl, rfl⟩ | ⟨rfl, rfl⟩ | ⟨rfl, rfl⟩ | ⟨rfl, rfl⟩ <;>
      exact ⟨rfl, by decide +kernel⟩
  simp only [fromPath, pathText, PathArg.text, h, hg, readFile, hp]

/-- **C123**: a string that is neither an existing file nor an example raises `FileNotFoundError`; so does the name of
an example when the working directory is another one, for the paths of the examples are relative. -/
theorem C123_missing [Zero V] [One V] (r : ReadEnv V SS S) (fs : String → Option (List Char)) (lang s : String)
    (h : fs s = none) (hx : ∀ p, (s, p) ∈ exampleModels ∨ (firstPart s, p) ∈ exampleModels → fs p = none) :
    fromPath r fs (.str s) lang = .err .fileNotFound := by
  have key : pathText fs (.str s) = .error .fileNotFound := by
    simp only [pathText, PathArg.text, h]
    cases hg : getExample s with
    | error e => rfl
    | ok q =>
      have : fs q = none := by
        unfold getExample at hg
        split at hg
        · rename_i p hp
          cases hg
          exact hx _ (.inl (Dict.mem_of_get? hp))
        · split at hg
          · rename_i p hp
            cases hg
            exact hx _ (.inr (Dict.mem_of_get? hp))
          · cases hg
      simp [readFile, this]
  simp only [fromPath, key]

/-- a case: an example that is registered, in a directory without any files -/
example : fromPath fileRead (fun _ => none) (.str "simple_rbc.mod") "dynare" = .err .fileNotFound ∧
    ("simple_rbc", "pynare/examples/pynare/simple_rbc.mod") ∈ exampleModels :=
  ⟨C123_missing fileRead _ _ _ rfl fun _ _ => rfl, List.mem_cons_self⟩

/-- **C123**: examples are read from a directory `pynare/examples/pynare` below the working directory and from nowhere
else. -/
theorem C123_relative [Zero V] [One V] (r : ReadEnv V SS S) (fs : String → Option (List Char)) (lang s : String)
    (h : fs s = none) (hx : ∀ p, "pynare/examples/pynare/".toList <+: p.toList → fs p = none) :
    fromPath r fs (.str s) lang = .err .fileNotFound := by
  refine C123_missing r fs lang s h ?_
  have key : ∀ q ∈ exampleModels, "pynare/examples/pynare/".toList <+: q.2.toList := by decide +kernel
  rintro p (hp | hp)
  · exact hx p (key _ hp)
  · exact hx p (key _ hp)

/-- a case: a directory that has only one file, which is not below `pynare` -/
example (r : ReadEnv Int Nat Nat) : fromPath r (fun p => if p = "a.mod" then some [] else none) (.str "simple_rbc") "dynare"
    = .err .fileNotFound :=
  C123_relative r _ _ _ (by decide) fun p hp => by
    have : p ≠ "a.mod" := by rintro rfl; revert hp; decide
    simp [this]

/-- **C123 is false**: a `Path` – the documented type of the argument – raises `AttributeError`, whether or not there is
such a file. -/
theorem C123_false [Zero V] [One V] (r : ReadEnv V SS S) (fs : String → Option (List Char)) (lang p : String) :
    fromPath r fs (.path p) lang = .err .attributeError := by
  simp only [fromPath, pathText, PathArg.text]
  cases fs p <;> rfl

/-- **C123**: languages other than `dynare` are refused. -/
theorem C123_language [Zero V] [One V] (r : ReadEnv V SS S) (lang name : String) (text : List Char)
    (h : lang ≠ "dynare") : fromText r lang name text = .err .notImplemented := by
  simp [fromText, readModel, h, bind, Out.bind]

#print axioms C118_text_partial
#print axioms C118_shocks_partial
#print axioms C119_readable
#print axioms C120_frozen
#print axioms C120_false
#print axioms C121_locals_partial
#print axioms C121_false
#print axioms C122_no_value
#print axioms C122_false
#print axioms C123_string_partial
#print axioms C123_example_partial
#print axioms C123_missing
#print axioms C123_relative
#print axioms C123_false
#print axioms C123_language

end Pynare
