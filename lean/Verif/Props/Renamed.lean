import Verif.Lemmas.RenamedModel
import Verif.Model.Whole
import Verif.Props.ModelObj
/-!
# Models with other names
-/

namespace Pynare

variable {V SS S : Type}

/-! ### C172: a change of names changes nothing but names -/

section c172
variable [Zero V] [One V] {env : MEnv V SS S} {φ : String → String} {N : String → Prop} {a a' : MArgs V}
variable {m m' : MState V SS S}

/-- **C172**, making: a model made from arguments in other names is the model made from the arguments, in other names –
with the same table of leads and lags, the same residual functions, the same state space, number by number and position
by position; and where one cannot be made, the other raises the same exception. -/
theorem C172_made (hb : Blind env) (hk : KeepsApart φ N env.okName) (ha : ArgsIn N a) (hr : RenamedArgs φ a a') :
    (∀ m, MState.create env a = .ok m → ∃ m', MState.create env a' = .ok m' ∧ RenamedModel φ m m' ∧ ModelIn N m) ∧
    ∀ e, MState.create env a = .error e → MState.create env a' = .error e := by
  have h := model_create_rename hb hk ha hr
  revert h
  generalize MState.create env a = x
  generalize MState.create env a' = y
  intro h
  cases h with
  | error => exact ⟨fun m h => (nomatch h), fun e h => h⟩
  | ok h =>
    rename_i u v
    exact ⟨fun m hm => ⟨v, rfl, by rw [← Except.ok.inj hm]; exact h.1, by rw [← Except.ok.inj hm]; exact h.2⟩,
      fun e h => (nomatch h)⟩

/-- **C172**, copies: the copies of the two models correspond too, and cannot be made for the same reason. -/
theorem C172_copied (hb : Blind env) (hk : KeepsApart φ N env.okName) (hm : ModelIn N m) (hr : RenamedModel φ m m') :
    (∀ c, m.copy env = .ok c → ∃ c', m'.copy env = .ok c' ∧ RenamedModel φ c c' ∧ ModelIn N c) ∧
    ∀ e, m.copy env = .error e → m'.copy env = .error e := by
  have h := copy_rename hb hk ⟨hr, hm⟩
  revert h
  generalize m.copy env = x
  generalize m'.copy env = y
  intro h
  cases h with
  | error => exact ⟨fun m h => (nomatch h), fun e h => h⟩
  | ok h =>
    rename_i u v
    exact ⟨fun m hm => ⟨v, rfl, by rw [← Except.ok.inj hm]; exact h.1, by rw [← Except.ok.inj hm]; exact h.2⟩,
      fun e h => (nomatch h)⟩

variable [Mul V]

/-- **C172**, histories: the same operations in other names – edits, reads and solves, in any order and whether they
raise or not – raise the same exceptions and leave models that are the same but for names. -/
theorem C172_history (hb : Blind env) (hk : KeepsApart φ N env.okName) (hm : ModelIn N m) (hr : RenamedModel φ m m')
    {os os' : List (MOp V)} (ho : List.Forall₂ (RenamedOp φ N env.parse) os os') :
    (MOp.runAll env m' os').2 = (MOp.runAll env m os).2 ∧
    RenamedModel φ (MOp.runAll env m os).1 (MOp.runAll env m' os').1 ∧ ModelIn N (MOp.runAll env m os).1 := by
  suffices h : ∀ m m' : MState V SS S, RenM φ N m m' → (MOp.runAll env m' os').2 = (MOp.runAll env m os).2 ∧
      RenM φ N (MOp.runAll env m os).1 (MOp.runAll env m' os').1 by
    exact ⟨(h m m' ⟨hr, hm⟩).1, (h m m' ⟨hr, hm⟩).2⟩
  induction ho with
  | nil => exact fun m m' h => ⟨rfl, h⟩
  | cons h1 _ ih =>
    intro m m' h
    have h2 := run_rename hb hk h h1
    obtain ⟨h3, h4⟩ := ih _ _ h2.1
    exact ⟨by simp only [MOp.runAll, h3, h2.2], h4⟩

omit [One V] in
/-- **C172**, results: what is read from the two models – the covariance matrix of the shocks, the solution, the one
solved for anew – is the same. -/
theorem C172_results (hb : Blind env) (hk : KeepsApart φ N env.okName) (hm : ModelIn N m) (hr : RenamedModel φ m m') :
    (m'.readAttr env MState.indexes).2 = (m.readAttr env MState.indexes).2 ∧
    (m'.readAttr env MState.steady).2 = (m.readAttr env MState.steady).2 ∧
    (m'.readAttr env MState.dynamic).2 = (m.readAttr env MState.dynamic).2 ∧
    (m'.readAttr env MState.statespace).2 = (m.readAttr env MState.statespace).2 ∧
    (m'.readSigma env).2 = (m.readSigma env).2 ∧ (m'.solve env).2 = (m.solve env).2 ∧
    (m'.solution env).2 = (m.solution env).2 :=
  ⟨(readAttr_rename hb hk (fun _ _ h => h.indexes) ⟨hr, hm⟩).2, (readAttr_rename hb hk (fun _ _ h => h.steady) ⟨hr, hm⟩).2,
    (readAttr_rename hb hk (fun _ _ h => h.dynamic) ⟨hr, hm⟩).2,
    (readAttr_rename hb hk (fun _ _ h => h.statespace) ⟨hr, hm⟩).2, (readSigma_rename hb hk ⟨hr, hm⟩).2,
    (solve_rename hb hk ⟨hr, hm⟩).2, (solution_rename hb hk ⟨hr, hm⟩).2⟩

end c172

/-- The state space made by the code does not look at names. -/
theorem blind_first [Zero V] [One V] [Add V] [Mul V] [Neg V] (env : MEnv V SS S) (lib : Libs V) : Blind (env.first lib) := by
  intro φ es
  funext n t st dy
  have : startValues lib.nan (es.map (Endog.rename φ)) = startValues lib.nan es := by
    simp [startValues, Function.comp_def, Endog.rename]
  show modelSpace lib _ n t st dy = modelSpace lib _ n t st dy
  simp only [modelSpace, this]

/-- **C172**, solutions: the steady state, the jacobian and the first- and second-order solutions of a model are those of
the model in other names, whatever the libraries compute – the numbers they are given are the same. -/
theorem C172_solved [Zero V] [One V] [Add V] [Mul V] [Neg V] [_root_.Sub V] [DecidableEq V] (env : MEnv V SS S) (lib : Libs V)
    (half : V) {φ : String → String} {N : String → Prop} {a a' : MArgs V} (hk : KeepsApart φ N env.okName)
    (ha : ArgsIn N a) (hr : RenamedArgs φ a a') :
    (∀ m, MState.create (env.first lib) a = .ok m → ∃ m', MState.create (env.first lib) a' = .ok m' ∧
      m'.statespace.steady = m.statespace.steady ∧ m'.statespace.jacobian = m.statespace.jacobian ∧
      (m'.solve (env.first lib)).2 = (m.solve (env.first lib)).2) ∧
    (∀ m, MState.create (env.second lib half) a = .ok m → ∃ m', MState.create (env.second lib half) a' = .ok m' ∧
      (m'.solve (env.second lib half)).2 = (m.solve (env.second lib half)).2) := by
  have b1 : Blind (env.first lib) := blind_first env lib
  have b2 : Blind (env.second lib half) := b1
  refine ⟨fun m hm => ?_, fun m hm => ?_⟩
  · obtain ⟨m', h1, h2, h3⟩ := (C172_made b1 (show KeepsApart φ N (env.first lib).okName from hk) ha hr).1 m hm
    exact ⟨m', h1, by rw [h2.statespace], by rw [h2.statespace],
      (C172_results b1 (show KeepsApart φ N (env.first lib).okName from hk) h3 h2).2.2.2.2.2.1⟩
  · obtain ⟨m', h1, h2, h3⟩ := (C172_made b2 (show KeepsApart φ N (env.second lib half).okName from hk) ha hr).1 m hm
    exact ⟨m', h1, (C172_results b2 (show KeepsApart φ N (env.second lib half).okName from hk) h3 h2).2.2.2.2.2.1⟩

/-! ### a concrete case -/

/-- other names for `x`, `e` and `rho` -/
def renEx (x : String) : String := if x = "x" then "cons" else if x = "e" then "x" else if x = "rho" then "e" else x

/-- the names there are -/
def renNames (x : String) : Prop := x ∈ ["", "x", "e", "rho"]

theorem renEx_apart : KeepsApart renEx renNames (fun _ => true) where
  blank := rfl
  none := by simp [renNames]
  apart := by
    intro a b ha hb
    simp only [renNames, List.mem_cons, List.not_mem_nil, or_false] at ha hb
    rcases ha with rfl | rfl | rfl | rfl <;> rcases hb with rfl | rfl | rfl | rfl <;> decide
  legal := fun _ _ _ _ => rfl

/-- the arguments in other names: `cons = e*cons(-1) + x` with the shock `x` and the parameter `e` -/
def renArgs : MArgs Int :=
  { endog := ["cons"], stoch := ["x"], params := [("e", .num 5)],
    exprs := ⟨[.bin .sub (.var "cons") (.bin .add (.bin .mul (.var "e") (.pvar "cons" (-1))) (.var "x"))], [""]⟩ }

/-- hypotheses of the theorems met by the autoregression of `toyArgs`, in names that are mixed up -/
example : Blind toyEnv ∧ KeepsApart renEx renNames toyEnv.okName ∧ ArgsIn renNames toyArgs ∧
    RenamedArgs renEx toyArgs renArgs ∧ (∃ m, MState.create toyEnv toyArgs = .ok m) ∧
    List.Forall₂ (RenamedOp renEx renNames toyEnv.parse)
      [.addParams [("rho", .num 7)], .addExprs [.tree (.var "x")], .solve, .addStoch ["e"] [("e", { variance := some 2 })]]
      [.addParams [("e", .num 7)], .addExprs [.tree (.var "cons")], .solve, .addStoch ["x"] [("x", { variance := some 2 })]] := by
  refine ⟨fun φ es => rfl, renEx_apart, ?_, ⟨rfl, rfl, rfl, rfl, rfl, rfl, rfl, rfl, rfl, rfl, rfl⟩, ⟨_, rfl⟩, ?_⟩
  · constructor <;> simp [toyArgs, DefsIn, MomentsIn, renNames, eqAR, Expr.names, Expr.vars, Expr.pvars, Dict.keys, Def.names]
    tauto
  · refine .cons (.addParams ?_) (.cons (.addExprs (.cons (.tree ?_) .nil)) (.cons .solve (.cons ?_ .nil)))
    · simp [DefsIn, renNames, Def.names]
    · simp [renNames, Expr.names, Expr.vars, Expr.pvars]
    · have h : RenamedOp renEx renNames toyEnv.parse (.addStoch ["e"] [("e", { variance := some 2 })]) _ :=
        .addStoch (by simp [renNames]) (by simp [MomentsIn, renNames])
      exact h

/-- ... and the two models have the same state space and the same solution -/
example : ∃ m m', MState.create toyEnv toyArgs = .ok m ∧ MState.create toyEnv renArgs = .ok m' ∧ m.statespace = -4 ∧
    m'.statespace = -4 ∧ (m.solve toyEnv).2 = .ok (-4) ∧ (m'.solve toyEnv).2 = .ok (-4) :=
  ⟨_, _, rfl, rfl, rfl, rfl, rfl, rfl⟩

/-! ### names that are merely different -/

/-- `x = x(-1)` and `y = x` -/
def twoArgs (y : String) : MArgs Int :=
  { endog := ["x", y], exprs := ⟨[.bin .sub (.var "x") (.pvar "x" (-1)), .bin .sub (.var y) (.var "x")], ["", ""]⟩ }

/-- `y` and `xm1` exchanged -/
def swapY (s : String) : String := if s = "y" then "xm1" else if s = "xm1" then "y" else s

/-- **C172 is false** of names that are merely different from each other: `xm1` is a name like `y`, but a model in which
the second variable is called `xm1` instead of `y` cannot be made, since the code makes the same name for the first
lagged. -/
theorem C172_false : ∃ (φ : String → String) (m : MState Int Int Int), (∀ a b, φ a = φ b ↔ a = b) ∧
    RenamedArgs φ (twoArgs "y") (twoArgs "xm1") ∧ MState.create toyEnv2 (twoArgs "y") = .ok m ∧
    MState.create toyEnv2 (twoArgs "xm1") = .error .valueError := by
  refine ⟨swapY, _, ?_,
    ⟨rfl, rfl, rfl, rfl, rfl, rfl, rfl, rfl, rfl, rfl, rfl⟩, rfl, rfl⟩
  refine fun a b => ⟨fun h => ?_, fun h => by rw [h]⟩
  have hs : ∀ s : String, swapY (swapY s) = s := by
    intro s
    unfold swapY
    by_cases h1 : s = "y"
    · subst h1; rfl
    · by_cases h2 : s = "xm1"
      · subst h2; rfl
      · simp [h1, h2]
  rw [← hs a, ← hs b, h]

#print axioms C172_made
#print axioms C172_copied
#print axioms C172_history
#print axioms C172_results
#print axioms C172_solved
#print axioms C172_false

end Pynare
