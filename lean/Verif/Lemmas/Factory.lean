import Verif.Model.Factory
import Verif.Spec.Factory
import Verif.Lemmas.Semantics
import Verif.Lemmas.CalibEval
/-! Helper lemmas about reading a model file. -/

namespace Pynare

variable {V : Type}

theorem pure_bind_ok {α β : Type} {x : Except Err α} {f : α → β} {b : β}
    (h : (do let a ← x; pure (f a) : Except Err β) = .ok b) : ∃ a, x = .ok a ∧ b = f a := by
  cases x with
  | error e => simp [bind, Except.bind] at h
  | ok a => simp [bind, Except.bind, pure, Except.pure] at h; exact ⟨a, rfl, h.symm⟩

theorem fileEval_iff (ops : Ops V) (look : String → Option V) (e : Expr V) (v : V) :
    fileEval ops look e = .ok (some v) ↔ Evals ops look e v := by
  constructor
  · intro h
    induction e generalizing v with
    | num w => simp [fileEval] at h; subst h; exact .num
    | var x => simp [fileEval] at h; exact .var h
    | pvar x o => simp [fileEval] at h
    | un op e ih =>
      simp only [fileEval, Except.bind_ok_iff] at h
      obtain ⟨a, h1, h2⟩ := h
      cases a with
      | none => simp at h2
      | some a =>
        obtain ⟨w, h3, h4⟩ := pure_bind_ok h2
        simp at h4; subst h4
        exact .un (ih a h1) h3
    | bin op l r ihl ihr =>
      simp only [fileEval, Except.bind_ok_iff] at h
      obtain ⟨a, h1, b, h2, h3⟩ := h
      cases a with
      | none => simp at h3
      | some a =>
        cases b with
        | none => simp at h3
        | some b =>
          obtain ⟨w, h4, h5⟩ := pure_bind_ok h3
          simp at h5; subst h5
          exact .bin (ihl a h1) (ihr b h2) h4
    | cmp op l r ihl ihr =>
      simp only [fileEval, Except.bind_ok_iff] at h
      obtain ⟨a, h1, b, h2, h3⟩ := h
      cases a with
      | none => simp at h3
      | some a =>
        cases b with
        | none => simp at h3
        | some b =>
          obtain ⟨w, h4, h5⟩ := pure_bind_ok h3
          simp at h5; subst h5
          exact .cmp (ihl a h1) (ihr b h2) h4
    | fn f e ih =>
      simp only [fileEval] at h
      split at h
      · simp at h
      · rename_i hu
        rw [Except.bind_ok_iff] at h
        obtain ⟨a, h1, h2⟩ := h
        cases a with
        | none => simp at h2
        | some a =>
          obtain ⟨w, h3, h4⟩ := pure_bind_ok h2
          simp at h4; subst h4
          exact .fn (applies_of_not_unsupported (by simpa using hu)) (ih a h1) h3
  · intro h
    induction h with
    | num => rfl
    | var h => simp [fileEval, h]
    | un _ h ih => simp [fileEval, bind, Except.bind, ih, h, pure, Except.pure]
    | bin _ _ h ih1 ih2 => simp [fileEval, bind, Except.bind, ih1, ih2, h, pure, Except.pure]
    | cmp _ _ h ih1 ih2 => simp [fileEval, bind, Except.bind, ih1, ih2, h, pure, Except.pure]
    | fn ha _ h ih =>
      obtain ⟨hu, hg⟩ := applies_inv ha
      subst hg
      simp [fileEval, bind, Except.bind, ih, hu, h, pure, Except.pure]

/-! ### declarations -/

/-- what the declarations `ds` leave in the outline -/
structure DeclInv (ds : List (String × String)) (o : Outline V) : Prop where
  params : ∀ x, (∃ e, o.params.get? x = some e) ↔ (x, "parameters") ∈ ds
  pnone : ∀ x e, o.params.get? x = some e → e = none
  pnodup : o.params.keys.Nodup
  endog : o.endog = (ds.filter fun p => p.2 = "var").map Prod.fst
  stoch : o.stoch = (ds.filter fun p => p.2 = "varexo").map Prod.fst
  determ : o.determ = (ds.filter fun p => p.2 = "varexo_det").map Prod.fst
  ll : ∀ x, o.leadLags.get? x = if (x, "var") ∈ ds then some [] else none
  rest : o.locals = [] ∧ o.exprs = [] ∧ o.initial = [] ∧ o.terminal = [] ∧ o.historical = [] ∧
    o.shocks = []

theorem facDecl_inv {ds : List (String × String)} {o o' : Outline V} {x k : String}
    (hi : DeclInv ds o) (h : facDecl o x k = .ok o') : DeclInv (ds ++ [(x, k)]) o' := by
  unfold facDecl at h
  by_cases h1 : k = "parameters"
  · subst h1
    simp at h; subst h
    refine ⟨?_, ?_, Dict.nodup_keys_set hi.pnodup _ _, ?_, ?_, ?_, ?_, hi.rest⟩
    · intro y
      simp only [Dict.get?_set]
      by_cases e : x = y
      · subst e; simp
      · simp [e, hi.params, Ne.symm e]
    · intro y e
      simp only [Dict.get?_set]
      by_cases e' : x = y
      · simp [e']; exact fun h => h.symm
      · simp [e']; exact hi.pnone y e
    · simp [hi.endog]
    · simp [hi.stoch]
    · simp [hi.determ]
    · intro y; simp [hi.ll]
  by_cases h2 : k = "varexo"
  · subst h2
    simp at h; subst h
    refine ⟨?_, hi.pnone, hi.pnodup, ?_, ?_, ?_, ?_, hi.rest⟩
    · intro y; simp [hi.params]
    · simp [hi.endog]
    · simp [hi.stoch]
    · simp [hi.determ]
    · intro y; simp [hi.ll]
  by_cases h3 : k = "varexo_det"
  · subst h3
    simp at h; subst h
    refine ⟨?_, hi.pnone, hi.pnodup, ?_, ?_, ?_, ?_, hi.rest⟩
    · intro y; simp [hi.params]
    · simp [hi.endog]
    · simp [hi.stoch]
    · simp [hi.determ]
    · intro y; simp [hi.ll]
  by_cases h4 : k = "var"
  · subst h4
    simp at h; subst h
    refine ⟨?_, hi.pnone, hi.pnodup, ?_, ?_, ?_, ?_, hi.rest⟩
    · intro y; simp [hi.params]
    · simp [hi.endog]
    · simp [hi.stoch]
    · simp [hi.determ]
    · intro y
      simp only [Dict.get?_set, hi.ll]
      by_cases e : x = y
      · subst e; simp
      · simp [e, Ne.symm e]
  · simp [h1, h2, h3, h4] at h

theorem facDecls_inv {es : List (String × String)} : ∀ {ds : List (String × String)}
    {o o' : Outline V}, DeclInv ds o → facDecls o es = .ok o' → DeclInv (ds ++ es) o' := by
  induction es with
  | nil => intro ds o o' hi h; simp [facDecls] at h; subst h; simpa using hi
  | cons p es ih =>
    obtain ⟨x, k⟩ := p
    intro ds o o' hi h
    simp only [facDecls, Except.bind_ok_iff] at h
    obtain ⟨o1, h1, h2⟩ := h
    have := ih (facDecl_inv hi h1) h2
    simpa using this

theorem declInv_nil : DeclInv [] ({} : Outline V) := by
  refine ⟨?_, ?_, ?_, rfl, rfl, rfl, ?_, ?_⟩ <;> simp [Dict.get?, Dict.keys]

/-! ### assignments -/

theorem memLookup_two (a b : Mem V) (x : String) : memLookup [a, b] x = match a.get? x with
    | some (some v) => some v
    | _ => match b.get? x with
      | some (some v) => some v
      | _ => none := by
  simp only [memLookup]
  cases ha : a.get? x with
  | none => simp; cases hb : b.get? x with
    | none => simp
    | some s => cases s <;> simp
  | some s =>
    cases s with
    | none => simp; cases hb : b.get? x with
      | none => simp
      | some s => cases s <;> simp
    | some v => simp

/-- the two scopes of the factory do not overlap -/
structure FacInv (s : Fac V) : Prop where
  file : ∀ x ∈ s.file.keys, s.out.params.get? x = none
  model : ∀ x ∈ s.model.keys, s.out.params.get? x ≠ none
  nodup : s.out.params.keys.Nodup

/-- the fields that assignments do not touch -/
def SameDecl (o o' : Outline V) : Prop :=
  o'.endog = o.endog ∧ o'.leadLags = o.leadLags ∧ o'.stoch = o.stoch ∧ o'.determ = o.determ ∧
  o'.locals = o.locals ∧ o'.exprs = o.exprs ∧ o'.initial = o.initial ∧ o'.terminal = o.terminal ∧
  o'.historical = o.historical ∧ o'.shocks = o.shocks

theorem SameDecl.refl (o : Outline V) : SameDecl o o :=
  ⟨rfl, rfl, rfl, rfl, rfl, rfl, rfl, rfl, rfl, rfl⟩

theorem SameDecl.trans {a b c : Outline V} (h : SameDecl a b) (h' : SameDecl b c) : SameDecl a c := by
  obtain ⟨h1, h2, h3, h4, h5, h6, h7, h8, h9, h10⟩ := h
  obtain ⟨k1, k2, k3, k4, k5, k6, k7, k8, k9, k10⟩ := h'
  exact ⟨k1.trans h1, k2.trans h2, k3.trans h3, k4.trans h4, k5.trans h5, k6.trans h6, k7.trans h7,
    k8.trans h8, k9.trans h9, k10.trans h10⟩

theorem facAssign_step {ops : Ops V} {s s' : Fac V} {x : String} {e : Expr V} (hi : FacInv s)
    (h : facAssign ops s x e = .ok s') :
    ∃ v, fileEval ops (memLookup [s.file, s.model]) e = .ok v ∧
      (∀ y, memLookup [s'.file, s'.model] y =
        if x = y then v else memLookup [s.file, s.model] y) ∧
      (∀ y, s'.out.params.get? y =
        if x = y then (s.out.params.get? x).map fun _ => some e else s.out.params.get? y) ∧
      SameDecl s.out s'.out ∧ s'.out.params.keys = s.out.params.keys ∧ FacInv s' := by
  simp only [facAssign, Except.bind_ok_iff] at h
  obtain ⟨v, hv, h⟩ := h
  refine ⟨v, hv, ?_⟩
  cases hp : s.out.params.get? x with
  | some d =>
    rw [hp] at h; simp at h; subst h
    have hk : x ∈ s.out.params.keys := Dict.mem_keys_of_get? hp
    have hkeys := Dict.keys_set_of_mem hk (some e)
    refine ⟨?_, ?_, ⟨rfl, rfl, rfl, rfl, rfl, rfl, rfl, rfl, rfl, rfl⟩, hkeys, ?_⟩
    · intro y
      rw [memLookup_two, memLookup_two, Dict.get?_set]
      by_cases exy : x = y
      · subst exy
        have hf : s.file.get? x = none := by
          rw [Dict.get?_eq_none_iff]
          intro hm; rw [hi.file x hm] at hp; cases hp
        simp [hf]; cases v <;> rfl
      · simp [exy]
    · intro y; rw [Dict.get?_set]; simp
    · refine ⟨?_, ?_, by rw [hkeys]; exact hi.nodup⟩
      · intro y hy
        rw [Dict.get?_eq_none_iff, hkeys, ← Dict.get?_eq_none_iff]
        exact hi.file y hy
      · intro y hy
        rw [ne_eq, Dict.get?_eq_none_iff, hkeys, ← Dict.get?_eq_none_iff]
        by_cases hm : x ∈ s.model.keys
        · rw [Dict.keys_set_of_mem hm] at hy; exact hi.model y hy
        · rw [Dict.keys_set_of_not_mem hm] at hy
          rcases List.mem_append.mp hy with hy | hy
          · exact hi.model y hy
          · simp at hy; subst hy; rw [hp]; simp
  | none =>
    rw [hp] at h; simp at h; subst h
    refine ⟨?_, ?_, SameDecl.refl _, rfl, ?_⟩
    · intro y
      rw [memLookup_two, memLookup_two, Dict.get?_set]
      by_cases exy : x = y
      · subst exy
        have hf : s.model.get? x = none := by
          rw [Dict.get?_eq_none_iff]
          intro hm; exact hi.model x hm hp
        simp [hf]; cases v <;> rfl
      · simp [exy]
    · intro y
      by_cases exy : x = y
      · subst exy; simp [hp]
      · simp [exy]
    · refine ⟨?_, hi.model, hi.nodup⟩
      intro y hy
      by_cases hm : x ∈ s.file.keys
      · rw [Dict.keys_set_of_mem hm] at hy; exact hi.file y hy
      · rw [Dict.keys_set_of_not_mem hm] at hy
        rcases List.mem_append.mp hy with hy | hy
        · exact hi.file y hy
        · simp at hy; subst hy; exact hp

/-- running the assignments as the factory does is straight-line execution -/
theorem facAssigns_exec {ops : Ops V} {as : List (String × Expr V)} : ∀ {s s' : Fac V}
    {ρ' : String → Option V}, FacInv s → facAssigns ops s as = .ok s' →
    Exec ops (memLookup [s.file, s.model]) as ρ' → memLookup [s'.file, s'.model] = ρ' := by
  induction as with
  | nil =>
    intro s s' ρ' _ h hx
    simp [facAssigns] at h; subst h
    cases hx; rfl
  | cons a as ih =>
    obtain ⟨x, e⟩ := a
    intro s s' ρ' hi h hx
    simp only [facAssigns, Except.bind_ok_iff] at h
    obtain ⟨s1, h1, h2⟩ := h
    obtain ⟨v, hv, hm, _, _, _, hi'⟩ := facAssign_step hi h1
    cases hx with
    | @cons _ _ _ _ w _ he hx =>
      have := (fileEval_iff ops _ e w).mpr he
      rw [this] at hv
      simp at hv; subst hv
      refine ih hi' h2 ?_
      have : memLookup [s1.file, s1.model] = fun y => if x = y then some w else
          memLookup [s.file, s.model] y := funext hm
      rw [this]; exact hx

theorem facAssigns_total {ops : Ops V} {as : List (String × Expr V)} : ∀ {s : Fac V}
    {ρ' : String → Option V}, FacInv s → Exec ops (memLookup [s.file, s.model]) as ρ' →
    ∃ s', facAssigns ops s as = .ok s' := by
  induction as with
  | nil => intro s ρ' _ _; exact ⟨s, rfl⟩
  | cons a as ih =>
    obtain ⟨x, e⟩ := a
    intro s ρ' hi hx
    cases hx with
    | @cons _ _ _ _ w _ he hx =>
      have hv := (fileEval_iff ops _ e w).mpr he
      obtain ⟨s1, h1⟩ : ∃ s1, facAssign ops s x e = .ok s1 := by
        simp only [facAssign, hv, bind, Except.bind]
        cases s.out.params.get? x <;> simp
      obtain ⟨v, hv', hm, _, _, _, hi'⟩ := facAssign_step hi h1
      rw [hv] at hv'; simp at hv'; subst hv'
      have : memLookup [s1.file, s1.model] = fun y => if x = y then some w else
          memLookup [s.file, s.model] y := funext hm
      rw [← this] at hx
      obtain ⟨s', h2⟩ := ih hi' hx
      exact ⟨s', by simp [facAssigns, h1, h2, bind, Except.bind]⟩

theorem facAssigns_params {ops : Ops V} {as : List (String × Expr V)} : ∀ {s s' : Fac V},
    FacInv s → facAssigns ops s as = .ok s' → SameDecl s.out s'.out ∧
      s'.out.params.keys = s.out.params.keys ∧ FacInv s' ∧
      (∀ y, (∀ e, (y, e) ∉ as) → s'.out.params.get? y = s.out.params.get? y) ∧
      (∀ pre y e post, as = pre ++ (y, e) :: post → (∀ e', (y, e') ∉ post) →
        s.out.params.get? y ≠ none → s'.out.params.get? y = some (some e)) := by
  induction as with
  | nil =>
    intro s s' hi h
    simp [facAssigns] at h; subst h
    exact ⟨SameDecl.refl _, rfl, hi, fun _ _ => rfl, fun pre y e post h => by simp at h⟩
  | cons a as ih =>
    obtain ⟨x, e⟩ := a
    intro s s' hi h
    simp only [facAssigns, Except.bind_ok_iff] at h
    obtain ⟨s1, h1, h2⟩ := h
    obtain ⟨v, hv, hm, hp, hs, hk, hi'⟩ := facAssign_step hi h1
    obtain ⟨a1, a2, a3, a4, a5⟩ := ih hi' h2
    refine ⟨hs.trans a1, a2.trans hk, a3, ?_, ?_⟩
    · intro y hy
      rw [a4 y (fun e' hm => hy e' (List.mem_cons_of_mem _ hm)), hp y, if_neg]
      rintro rfl; exact hy e (by simp)
    · intro pre y f post he hlast hne
      cases pre with
      | nil =>
        simp at he; obtain ⟨⟨rfl, rfl⟩, rfl⟩ := he
        rw [a4 x hlast, hp x, if_pos rfl]
        cases hq : s.out.params.get? x with
        | none => exact absurd hq hne
        | some d => rfl
      | cons b pre =>
        simp at he; obtain ⟨rfl, rfl⟩ := he
        refine a5 pre y f post rfl hlast ?_
        rw [hp y]
        by_cases exy : x = y
        · subst exy
          cases hq : s.out.params.get? x with
          | none => exact absurd hq hne
          | some d => simp
        · simp [exy]; exact hne

/-! ### the model block -/

theorem mem_intAdd {s : List Int} {x y : Int} : y ∈ intAdd s x ↔ y ∈ s ∨ y = x := by
  unfold intAdd
  split
  · rename_i h
    constructor
    · exact Or.inl
    · rintro (h' | rfl)
      · exact h'
      · exact h
  · simp

/-- `x` has an entry in which `p` is recorded -/
def Rec (d : Dict (List Int)) (x : String) (p : Int) : Prop := ∃ s, d.get? x = some s ∧ p ∈ s

theorem llAdd_spec (d : Dict (List Int)) (x : String) (p : Int) :
    (∀ y, (∃ s, (llAdd d x p).get? y = some s) ↔ ∃ s, d.get? y = some s) ∧
    ∀ y q, Rec (llAdd d x p) y q ↔
      Rec d y q ∨ ((∃ s, d.get? y = some s) ∧ y = x ∧ q = p) := by
  unfold llAdd Rec
  cases h : d.get? x with
  | none =>
    refine ⟨fun _ => Iff.rfl, fun y q => ⟨Or.inl, ?_⟩⟩
    rintro (h' | ⟨⟨s, h'⟩, rfl, rfl⟩)
    · exact h'
    · rw [h] at h'; cases h'
  | some s =>
    constructor
    · intro y
      simp only [Dict.get?_set]
      by_cases e : x = y
      · subst e; simp [h]
      · simp [e]
    · intro y q
      simp only [Dict.get?_set]
      by_cases e : x = y
      · subst e; simp [h, mem_intAdd]
      · simp [e, Ne.symm e]

theorem facPeriods_spec (e : Expr V) : ∀ {d d' : Dict (List Int)}, facPeriods d e = .ok d' →
    (∀ y, (∃ s, d'.get? y = some s) ↔ ∃ s, d.get? y = some s) ∧
    ∀ y q, Rec d' y q ↔ Rec d y q ∨ ((∃ s, d.get? y = some s) ∧ OccursAt y q e) := by
  induction e with
  | num v =>
    intro d d' h; simp [facPeriods] at h; subst h
    simp [OccursAt, Expr.vars, Expr.pvars]
  | var x =>
    intro d d' h; simp [facPeriods] at h; subst h
    have := llAdd_spec d x 0
    refine ⟨this.1, fun y q => (this.2 y q).trans ?_⟩
    simp only [OccursAt, Expr.vars, Expr.pvars, List.mem_singleton, List.not_mem_nil, or_false]
    constructor
    · rintro (h | ⟨a, b, c⟩)
      · exact Or.inl h
      · exact Or.inr ⟨a, c, b⟩
    · rintro (h | ⟨a, b, c⟩)
      · exact Or.inl h
      · exact Or.inr ⟨a, c, b⟩
  | pvar x o =>
    intro d d' h; simp [facPeriods] at h; subst h
    have := llAdd_spec d x o
    refine ⟨this.1, fun y q => (this.2 y q).trans ?_⟩
    simp [OccursAt, Expr.vars, Expr.pvars]
  | un op e ih => intro d d' h; exact ih h
  | fn f e ih => intro d d' h; exact ih h
  | cmp op l r _ _ => intro d d' h; simp [facPeriods] at h
  | bin op l r ihl ihr =>
    intro d d' h
    simp only [facPeriods, Except.bind_ok_iff] at h
    obtain ⟨d1, h1, h2⟩ := h
    obtain ⟨a1, a2⟩ := ihl h1
    obtain ⟨b1, b2⟩ := ihr h2
    refine ⟨fun y => (b1 y).trans (a1 y), fun y q => ?_⟩
    rw [b2, a2, a1]
    simp only [OccursAt, Expr.vars, Expr.pvars, List.mem_append]
    constructor
    · rintro ((h | ⟨a, b⟩) | ⟨a, b⟩)
      · exact Or.inl h
      · refine Or.inr ⟨a, ?_⟩
        rcases b with ⟨b, c⟩ | b
        · exact Or.inl ⟨b, Or.inl c⟩
        · exact Or.inr (Or.inl b)
      · refine Or.inr ⟨a, ?_⟩
        rcases b with ⟨b, c⟩ | b
        · exact Or.inl ⟨b, Or.inr c⟩
        · exact Or.inr (Or.inr b)
    · rintro (h | ⟨a, ⟨b, c | c⟩ | c | c⟩)
      · exact Or.inl (Or.inl h)
      · exact Or.inl (Or.inr ⟨a, Or.inl ⟨b, c⟩⟩)
      · exact Or.inr ⟨a, Or.inl ⟨b, c⟩⟩
      · exact Or.inl (Or.inr ⟨a, Or.inr c⟩)
      · exact Or.inr ⟨a, Or.inr c⟩

/-- the equations of a model block, as left minus right -/
def residuals (ss : List (Stmt V)) : List (Expr V) :=
  ss.filterMap fun s => match s with
    | .eqn l r _ => some (.bin .sub l r)
    | .loc _ _ => none

theorem facStmts_spec {ops : Ops V} {model : Mem V} (ss : List (Stmt V)) :
    ∀ {st st' : Outline V × Mem V}, facStmts ops model st ss = .ok st' →
    st'.1.exprs = st.1.exprs ++ residuals ss ∧
    (∀ y, (∃ s, st'.1.leadLags.get? y = some s) ↔ ∃ s, st.1.leadLags.get? y = some s) ∧
    (∀ y q, Rec st'.1.leadLags y q ↔ Rec st.1.leadLags y q ∨
      ((∃ s, st.1.leadLags.get? y = some s) ∧ ∃ e ∈ residuals ss, OccursAt y q e)) ∧
    st'.1.params = st.1.params ∧ st'.1.endog = st.1.endog ∧ st'.1.stoch = st.1.stoch ∧
    st'.1.determ = st.1.determ ∧ st'.1.initial = st.1.initial ∧ st'.1.terminal = st.1.terminal ∧
    st'.1.historical = st.1.historical ∧ st'.1.shocks = st.1.shocks := by
  induction ss with
  | nil =>
    intro st st' h
    simp [facStmts] at h; subst h
    simp [residuals]
  | cons s ss ih =>
    intro st st' h
    simp only [facStmts, Except.bind_ok_iff] at h
    obtain ⟨st1, h1, h2⟩ := h
    obtain ⟨a1, a2, a3, a4⟩ := ih h2
    cases s with
    | loc x e =>
      simp only [facStmt, Except.bind_ok_iff] at h1
      obtain ⟨v, _, h1⟩ := h1
      simp at h1; subst h1
      have er : residuals (Stmt.loc x e :: ss) = residuals ss := by simp [residuals]
      rw [er]
      exact ⟨a1, a2, a3, a4⟩
    | eqn l r t =>
      simp only [facStmt, Except.bind_ok_iff] at h1
      obtain ⟨d, hd, h1⟩ := h1
      simp at h1; subst h1
      have er : residuals (Stmt.eqn l r t :: ss) = .bin .sub l r :: residuals ss := by
        simp [residuals]
      obtain ⟨b1, b2⟩ := facPeriods_spec _ hd
      refine ⟨by rw [a1, er]; simp, fun y => (a2 y).trans (b1 y), fun y q => ?_, a4⟩
      rw [a3]
      simp only
      rw [b2, b1, er]
      simp only [List.mem_cons, exists_eq_or_imp]
      constructor
      · rintro ((h | ⟨a, b⟩) | ⟨a, b⟩)
        · exact Or.inl h
        · exact Or.inr ⟨a, Or.inl b⟩
        · exact Or.inr ⟨a, Or.inr b⟩
      · rintro (h | ⟨a, b | b⟩)
        · exact Or.inl (Or.inl h)
        · exact Or.inl (Or.inr ⟨a, b⟩)
        · exact Or.inr ⟨a, b⟩

/-! ### the blocks after the model -/

theorem facBound_spec {ops : Ops V} {look : String → Option V} (bs : List (String × Expr V)) :
    ∀ {d d' : Dict (Option V)}, facBound ops look d bs = .ok d' →
    (∀ x, x ∈ d'.keys ↔ x ∈ d.keys ∨ ∃ e, (x, e) ∈ bs) ∧
    (∀ x, (∀ e, (x, e) ∉ bs) → d'.get? x = d.get? x) ∧
    ∀ pre x e post, bs = pre ++ (x, e) :: post → (∀ e', (x, e') ∉ post) →
      ∃ v, fileEval ops look e = .ok v ∧ d'.get? x = some v := by
  induction bs with
  | nil =>
    intro d d' h; simp [facBound] at h; subst h
    exact ⟨by simp, fun _ _ => rfl, fun pre x e post h => by simp at h⟩
  | cons b bs ih =>
    obtain ⟨x, e⟩ := b
    intro d d' h
    simp only [facBound, Except.bind_ok_iff] at h
    obtain ⟨v, hv, h⟩ := h
    obtain ⟨a1, a2, a3⟩ := ih h
    refine ⟨?_, ?_, ?_⟩
    · intro y
      rw [a1 y, ← Dict.get?_isSome_iff, ← Dict.get?_isSome_iff, Dict.get?_set]
      by_cases exy : x = y
      · subst exy; simp
      · simp only [exy, if_false, List.mem_cons, Prod.mk.injEq]
        constructor
        · rintro (h | ⟨e', h⟩)
          · exact Or.inl h
          · exact Or.inr ⟨e', Or.inr h⟩
        · rintro (h | ⟨e', ⟨h, _⟩ | h⟩)
          · exact Or.inl h
          · exact absurd h.symm exy
          · exact Or.inr ⟨e', h⟩
    · intro y hy
      rw [a2 y (fun e' hm => hy e' (List.mem_cons_of_mem _ hm)), Dict.get?_set, if_neg]
      rintro rfl; exact hy e (by simp)
    · intro pre y f post he hl
      cases pre with
      | nil =>
        simp at he; obtain ⟨⟨rfl, rfl⟩, rfl⟩ := he
        exact ⟨v, hv, by rw [a2 x hl, Dict.get?_set_self]⟩
      | cons c pre =>
        simp at he; obtain ⟨rfl, rfl⟩ := he
        exact a3 pre y f post rfl hl

theorem facBound_holds {ops : Ops V} {look : String → Option V} {bs : List (String × Expr V)}
    {d : Dict (Option V)} (h : facBound ops look [] bs = .ok d) : HoldsValues ops look bs d := by
  obtain ⟨a1, _, a3⟩ := facBound_spec bs h
  refine ⟨fun x => by simpa [Dict.keys] using a1 x, ?_⟩
  intro pre x e post he hl v hv
  obtain ⟨w, hw, hd⟩ := a3 pre x e post he hl
  rw [(fileEval_iff ops look e v).mpr hv] at hw
  simp at hw; subst hw; exact hd

theorem facBounds_spec {ops : Ops V} {look : String → Option V} {o o' : Outline V} {a : Actions V}
    (h : facBounds ops look o a = .ok o') :
    (match a.initval with
      | some b => facBound ops look [] b.vals = .ok o'.initial
      | none => o'.initial = o.initial) ∧
    (match a.endval with
      | some b => facBound ops look [] b.vals = .ok o'.terminal
      | none => o'.terminal = o.terminal) ∧
    (match a.histval with
      | some _ => (∃ b, a.endval = some b) ∧ o'.historical = o'.terminal
      | none => o'.historical = o.historical) ∧
    o'.params = o.params ∧ o'.endog = o.endog ∧ o'.leadLags = o.leadLags ∧ o'.stoch = o.stoch ∧
    o'.determ = o.determ ∧ o'.locals = o.locals ∧ o'.exprs = o.exprs ∧ o'.shocks = o.shocks := by
  obtain ⟨iv, ev, hv, sh⟩ := a
  simp only [facBounds, bind, Except.bind, pure, Except.pure] at h
  cases iv with
  | none =>
    cases ev with
    | none =>
      cases hv with
      | none => simp at h; subst h; simp
      | some b =>
        simp only at h
        cases hb : facBound ops look [] b.vals <;> simp [hb] at h
    | some c =>
      simp only at h
      cases hc : facBound ops look [] c.vals with
      | error e => simp [hc] at h
      | ok d =>
        cases hv with
        | none => simp [hc] at h; subst h; simp [hc]
        | some b =>
          cases hb : facBound ops look [] b.vals <;> simp [hb, hc] at h
          subst h; simp [hc]
  | some i =>
    simp only at h
    cases hi : facBound ops look [] i.vals with
    | error e => simp [hi] at h
    | ok di =>
      cases ev with
      | none =>
        cases hv with
        | none => simp [hi] at h; subst h; simp [hi]
        | some b =>
          cases hb : facBound ops look [] b.vals <;> simp [hb, hi] at h
      | some c =>
        cases hc : facBound ops look [] c.vals with
        | error e => simp [hc, hi] at h
        | ok d =>
          cases hv with
          | none => simp [hi, hc] at h; subst h; simp [hc, hi]
          | some b =>
            cases hb : facBound ops look [] b.vals <;> simp [hb, hc, hi] at h
            subst h; simp [hc, hi]

/-! ### the whole -/

theorem createOutline_inv {ops : Ops V} {sq : V → Except Err V} {m : ModelFile V} {o : Outline V}
    (h : createOutline ops sq m = .ok o) :
    verify m = .ok () ∧ ∃ o1 s st o2 b d, facDecls {} m.decls = .ok o1 ∧
      facAssigns ops ⟨o1, [], []⟩ m.params = .ok s ∧
      facStmts ops s.model (s.out, []) m.stmts = .ok st ∧
      facBounds ops (memLookup [s.file, s.model]) st.1 m.actions = .ok o2 ∧
      m.actions.shocks = some b ∧
      facShocks ops sq (memLookup [s.file, s.model]) [] b.shocks = .ok d ∧
      o = { o2 with shocks := d } := by
  simp only [createOutline, Except.bind_ok_iff] at h
  obtain ⟨_, h0, o1, h1, s, h2, st, h3, o2, h4, h5⟩ := h
  refine ⟨h0, o1, s, st, o2, ?_⟩
  cases hs : m.actions.shocks with
  | none => rw [hs] at h5; simp at h5
  | some b =>
    rw [hs] at h5
    simp only [Except.bind_ok_iff] at h5
    obtain ⟨d, h6, h7⟩ := h5
    simp at h7
    exact ⟨b, d, h1, h2, h3, h4, rfl, h6, h7.symm⟩

theorem facInv_start {o : Outline V} {ds} (h : DeclInv ds o) : FacInv (⟨o, [], []⟩ : Fac V) :=
  ⟨by simp [Dict.keys], by simp [Dict.keys], h.pnodup⟩

theorem memLookup_empty : memLookup [([] : Mem V), []] = noValues := by
  funext x; simp [memLookup, Dict.get?, noValues]

end Pynare
