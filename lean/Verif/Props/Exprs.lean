import Verif.Lemmas.Exprs
import Verif.Props.Index
/-!
# C33 – C36, C41 (and C29 for residuals): the residual functions

`dynamicFunc ops okName endo exo t σ e` – the residual function of equation `e` for the endogenous
variables `endo`, the shocks `exo`, the lead/lag table `t` and the parameters `σ`;
`steadyFunc` – the one of the steady state; `okName` – which names Python accepts as parameter
names; `linPoint` – the point of linearisation built from a vector of steady values.
-/

namespace Pynare

variable {V : Type}

/-- arithmetic on integers -/
def intOps : Ops Int where
  bin op a b := match op with
    | .add => .ok (a + b)
    | .sub => .ok (a - b)
    | .mul => .ok (a * b)
    | _ => .error .zeroDivision
  un op a := match op with
    | .pos => .ok a
    | .neg => .ok (-a)
  cmp _ _ _ := .error .typeError
  fn _ _ := .error .typeError

/-! ### C36: names -/

/-- **C36**, the part that holds: making the residual function of an equation raises `ValueError`
unless all names of arguments – variables with their suffix for the period, and shocks – are legal
and different. -/
theorem C36_construction (ops : Ops V) (okName : String → Bool) (endo exo : List String) (t : Typer)
    (σ : String → Option V) (e : Expr V) (hc : e.hasCmp = false) :
    ((∃ f, dynamicFunc ops okName endo exo t σ e = .ok f) ↔
      (∀ x ∈ dynVars endo exo t, okName x = true) ∧ (dynVars endo exo t).Nodup) ∧
    ((¬ ∃ f, dynamicFunc ops okName endo exo t σ e = .ok f) →
      dynamicFunc ops okName endo exo t σ e = .error .valueError) := by
  obtain ⟨p, hp⟩ := subTree_ok (σ := σ) (τ := fun _ _ => none) (nm := offsetName) e hc
  rw [← dynMaybe_eq] at hp
  have hs : modelSignature okName (dynVars endo exo t) = .ok () ∨
      modelSignature okName (dynVars endo exo t) = .error .valueError := by
    unfold modelSignature; split <;> simp
  have hi := modelSignature_ok (okName := okName) (names := dynVars endo exo t)
  rw [← hi]
  simp only [dynamicFunc, hp]
  rcases hs with hs | hs
  · rw [hs]; exact ⟨⟨fun _ => rfl, fun _ => ⟨_, rfl⟩⟩, fun h => absurd ⟨_, rfl⟩ h⟩
  · rw [hs]
    refine ⟨⟨?_, ?_⟩, fun _ => rfl⟩
    · rintro ⟨_, h⟩; cases h
    · intro h; cases h

/-- **C36**, the part that holds: once the residual function exists, two different entries of the
table, or an entry and a shock, or two shocks, never share a name, so none is taken for another. -/
theorem C36_distinct_partial {pss : List (List Int)} {t : Llx} (h : buildLlx pss = .ok t)
    (ops : Ops V) (okName : String → Bool) (endo exo : List String)
    (σ : String → Option V) (e : Expr V) (hc : e.hasCmp = false)
    (hf : ∃ f, dynamicFunc ops okName endo exo t.toTyper σ e = .ok f) :
    (∀ r c k r' c' k' x x', t.cell r c = some k → t.cell r' c' = some k' → endo[c]? = some x →
      endo[c']? = some x' → suffixName r x = suffixName r' x' → r = r' ∧ c = c') ∧
    (∀ (r c k j : Nat) x, t.cell r c = some k → endo[c]? = some x → exo[j]? ≠ some (suffixName r x)) ∧
    exo.Nodup := by
  have hnd := (((C36_construction ops okName endo exo t.toTyper σ e hc).1).mp hf).2
  refine ⟨?_, ?_, ?_⟩
  · intro r c k r' c' k' x x' h1 h2 h3 h4 h5
    have a := dynVars_endog h (exo := exo) h3 h1
    have b := dynVars_endog h (exo := exo) h4 h2
    rw [← h5] at b
    have := getElem?_inj_of_nodup hnd a b
    subst this
    have c1 := (places_get h).mp h1
    have c2 := (places_get h).mp h2
    rw [c1] at c2
    simpa using c2
  · intro r c k j x h1 h3 h5
    have a := dynVars_endog h (exo := exo) h3 h1
    have b := dynVars_shock h (endo := endo) h5
    have := getElem?_inj_of_nodup hnd a b
    have hk : k < t.count := ((buildLlx_spec h).2.2.2.2 k).mpr ⟨r, c, h1⟩
    omega
  · unfold dynVars at hnd; exact (List.nodup_append.mp hnd).2.1

/-- hypotheses of the two theorems met -/
example : ∃ t, buildLlx [[-1, 0, 1], [0]] = .ok t ∧ t.count = 4 ∧
    ∃ f, dynamicFunc intOps (fun _ => true) ["x", "y"] ["e"] t.toTyper (fun _ => none)
      (.bin .sub (.var "x") (.pvar "x" (-1))) = .ok f := by
  refine ⟨_, rfl, rfl, _, rfl⟩

/-- **C36**: a clash, `xm1` declared beside the lag of `x`, is refused. -/
theorem C36_clash_refused : ∃ t, modelLlx ["x", "xm1"]
      [(.bin .sub (.var "x") (.bin .add (.pvar "x" (-1)) (.var "xm1")) : Expr Int)] = .ok t ∧
    dynamicFunc intOps (fun _ => true) ["x", "xm1"] [] t.toTyper (fun _ => none)
      (.bin .sub (.var "x") (.bin .add (.pvar "x" (-1)) (.var "xm1"))) matches .error .valueError :=
  ⟨_, rfl, rfl⟩

/-- **C36 is false**: a name that is not an argument of its own – one declared by `varexo_det`, or
not at all – and is spelled like the lag of `x` is silently read as the lag of `x`. -/
theorem C36_foreign_name_confused : ∃ t f, modelLlx ["x"]
      [(.bin .sub (.var "x") (.bin .add (.pvar "x" (-1)) (.var "xm1")) : Expr Int)] = .ok t ∧
    dynamicFunc intOps (fun _ => true) ["x"] [] t.toTyper (fun _ => none)
      (.bin .sub (.var "x") (.bin .add (.pvar "x" (-1)) (.var "xm1"))) = .ok f ∧
    f [10, 100] = .ok 80 :=
  ⟨_, _, rfl, rfl, rfl⟩

/-! ### C33: the dynamic residual -/

/-- the value of a dynamic residual function in terms of the names of the arguments -/
theorem dynamicFunc_run {ops : Ops V} {okName : String → Bool} {endo exo : List String} {t : Typer}
    {σ : String → Option V} {e : Expr V} {f : List V → Except Err V}
    (hcp : e.compound = true)
    (hf : dynamicFunc ops okName endo exo t σ e = .ok f) {vec : List V}
    (hvec : vec.length = (dynVars endo exo t).length) :
    (dynVars endo exo t).Nodup ∧ ∃ d : Dict V,
      f vec = evalP ops (withVals σ (dynLook d)) (fun x o => dynLook d (offsetName x o)) e ∧
      ∀ z v, Recorded σ (fun _ _ => none) offsetName e z →
        (dynLook d z = .ok v ↔ ∃ i : Nat, (dynVars endo exo t)[i]? = some z ∧ vec[i]? = some v) := by
  simp only [dynamicFunc, Except.bind_ok_iff] at hf
  obtain ⟨p, h1, ⟨⟩, h2, h3⟩ := hf
  simp only [Except.ok.injEq] at h3
  subst h3
  have hnd := (modelSignature_ok.mp h2).2
  refine ⟨hnd, ?_⟩
  rw [dynMaybe_eq] at h1
  obtain ⟨d, hd1, hd2⟩ := pickVals_spec p.2 (dynVars endo exo t) [] vec hvec hnd (fun _ _ => rfl)
  obtain ⟨a, b⟩ := subTree_spec (ops := ops) (lv := dynLook d)
    (lp := fun x o => dynLook d (offsetName x o)) e (e1 := p.1) (ns := p.2) h1
  rw [mbGen_compound (subTree_compound (e1 := p.1) (ns := p.2) h1 hcp)] at a b
  refine ⟨d, ?_, ?_⟩
  · simp only [runDynamic, hd1]
    exact a
  · intro z v hz
    have hm : z ∈ p.2 := by have := (b z).mpr hz; simpa using this
    have : dynLook d z = .ok v ↔ d.get? z = some v := by
      unfold dynLook; cases d.get? z <;> simp
    rw [this, hd2 z v]
    simp [Dict.get?, hm]

/-- **C33**, the part that holds: in a model whose table was made from its equations `es`, all of
whose occurrences are at periods -1, 0, 1, the residual function of `left = right`, called on a
vector with one entry for each numbered occurrence and one for each shock, returns a value exactly
when it is the value of `left - right` with every occurrence read from its own entry.  What is
excluded: an explicit offset of zero, `x(0)`, which is read as the lag; a variable that is neither
parameter, nor endogenous, nor one of the shocks (`varexo_det`), which raises `KeyError`; a shock
with an offset. -/
theorem C33_dynamic_residual_partial (ops : Ops V) (okName : String → Bool)
    (endo exo : List String) (es : List (Expr V)) (t : Llx) (σ : String → Option V)
    (ht : modelLlx endo es = .ok t) (hc : ∀ e ∈ es, e.hasCmp = false)
    (hstd : ∀ x ∈ endo, ∀ q, ∀ e ∈ es, OccursAt x q e → q = -1 ∨ q = 0 ∨ q = 1)
    {l r : Expr V} (he : .bin .sub l r ∈ es)
    (hvar : ∀ x, x ∈ l.vars ∨ x ∈ r.vars → σ x ≠ none ∨ x ∈ endo ∨ x ∈ exo)
    (hper : ∀ x o, (x, o) ∈ l.pvars ∨ (x, o) ∈ r.pvars → x ∈ endo ∧ (o = -1 ∨ o = 1))
    {f : List V → Except Err V}
    (hf : dynamicFunc ops okName endo exo t.toTyper σ (.bin .sub l r) = .ok f)
    {vec : List V} (hvec : vec.length = t.count + exo.length) (v : V) :
    f vec = .ok v ↔ ∃ a b,
      PEvals ops (ReadsVar σ endo exo t vec) (ReadsAt endo t.toTyper vec) l a ∧
      PEvals ops (ReadsVar σ endo exo t vec) (ReadsAt endo t.toTyper vec) r b ∧
      ops.bin .sub a b = .ok v := by
  obtain ⟨pss, hb⟩ := modelLlx_build ht
  have hlen := dynVars_length hb endo exo
  obtain ⟨hnd, d, h1, h2⟩ := dynamicFunc_run rfl hf (vec := vec) (by rw [hvec, hlen])
  have hocc0 : ∀ x, x ∈ l.vars ∨ x ∈ r.vars → OccursAt x 0 (.bin .sub l r) := by
    intro x hx; exact .inl ⟨rfl, by simpa [Expr.vars] using hx⟩
  have hocc : ∀ x o, (x, o) ∈ l.pvars ∨ (x, o) ∈ r.pvars → OccursAt x o (.bin .sub l r) := by
    intro x o hx; exact .inr (by simpa [Expr.pvars] using hx)
  -- reading an endogenous variable
  have key : ∀ x (p : Int), x ∈ endo → (p = -1 ∨ p = 0 ∨ p = 1) → OccursAt x p (.bin .sub l r) →
      ∀ v, (∃ i : Nat, (dynVars endo exo t.toTyper)[i]? = some (suffixName (p + 1).toNat x) ∧
        vec[i]? = some v) ↔ ReadsAt endo t.toTyper vec x p v := by
    intro x p hx hp ho v
    constructor
    · rintro ⟨i, hi, hv⟩
      obtain ⟨c, hcx⟩ := List.getElem?_of_mem hx
      obtain ⟨k, hk⟩ := modelLlx_cell ht hc hcx hp (fun q e he ho => hstd x hx q e he ho) he ho
      have := dynVars_endog hb (exo := exo) hcx hk
      have hik := getElem?_inj_of_nodup hnd hi this
      subst hik
      exact ⟨c, _, hcx, hk, hv⟩
    · rintro ⟨c, k, hcx, hk, hv⟩
      exact ⟨k, dynVars_endog hb hcx hk, hv⟩
  have hV : ∀ x, x ∈ l.vars ∨ x ∈ r.vars → ∀ v,
      withVals σ (dynLook d) x = .ok v ↔ ReadsVar σ endo exo t vec x v := by
    intro x hx v
    unfold withVals
    cases hσ : σ x with
    | some w =>
      constructor
      · intro h; cases h; exact .param hσ
      · rintro (h | ⟨h, _⟩ | ⟨h, _⟩)
        · rw [hσ] at h; cases h; rfl
        · rw [hσ] at h; cases h
        · rw [hσ] at h; cases h
    | none =>
      show dynLook d x = .ok v ↔ _
      rw [h2 x v (.inl ⟨x, by simpa [Expr.vars] using hx, hσ, rfl⟩)]
      have hx0 := fun hm => key x 0 hm (.inr (.inl rfl)) (hocc0 x hx) v
      have e0 : suffixName ((0 : Int) + 1).toNat x = x := suffixName_one x
      rw [e0] at hx0
      constructor
      · intro h
        rcases hvar x hx with h' | h' | h'
        · exact absurd hσ h'
        · exact .endog hσ ((hx0 h').mp h)
        · obtain ⟨i, hi, hv⟩ := h
          obtain ⟨j, hj⟩ := List.getElem?_of_mem h'
          have hij := getElem?_inj_of_nodup hnd hi (dynVars_shock hb hj)
          subst hij
          exact .shock hσ hj hv
      · rintro (h | ⟨_, h⟩ | ⟨_, hj, hv⟩)
        · rw [hσ] at h; cases h
        · obtain ⟨c, k, hcx, hk, hv⟩ := id h
          exact (hx0 (List.mem_of_getElem? hcx)).mpr h
        · exact ⟨_, dynVars_shock hb hj, hv⟩
  have hP : ∀ x o, (x, o) ∈ l.pvars ∨ (x, o) ∈ r.pvars → ∀ v,
      dynLook d (offsetName x o) = .ok v ↔ ReadsAt endo t.toTyper vec x o v := by
    intro x o hx v
    obtain ⟨hm, ho⟩ := hper x o hx
    rw [h2 _ v (.inr ⟨x, o, by simpa [Expr.pvars] using hx, rfl, rfl⟩), ← suffixName_offset ho]
    refine key x o hm ?_ (hocc x o hx) v
    rcases ho with h | h <;> simp [h]
  rw [h1, evalP_iff]
  constructor
  · intro h
    cases h with
    | bin ha hb' hs =>
      refine ⟨_, _, ha.congr ?_ ?_, hb'.congr ?_ ?_, hs⟩
      · exact fun x hx v h => (hV x (.inl hx) v).mp h
      · exact fun x o hx v h => (hP x o (.inl hx) v).mp h
      · exact fun x hx v h => (hV x (.inr hx) v).mp h
      · exact fun x o hx v h => (hP x o (.inr hx) v).mp h
  · rintro ⟨a, b, ha, hb', hs⟩
    refine .bin (ha.congr ?_ ?_) (hb'.congr ?_ ?_) hs
    · exact fun x hx v h => (hV x (.inl hx) v).mpr h
    · exact fun x o hx v h => (hP x o (.inl hx) v).mpr h
    · exact fun x hx v h => (hV x (.inr hx) v).mpr h
    · exact fun x o hx v h => (hP x o (.inr hx) v).mpr h

/-- the equations `x = rho*x(-1) + e` and `y = x(+1)` -/
def eqsXY : List (Expr Int) :=
  [.bin .sub (.var "x") (.bin .add (.bin .mul (.var "rho") (.pvar "x" (-1))) (.var "e")),
   .bin .sub (.var "y") (.pvar "x" 1)]

/-- parameter `rho = 5` -/
def scopeRho : String → Option Int := fun x => if x = "rho" then some 5 else none

/-- hypotheses of `C33_dynamic_residual_partial` met, with the value -/
example : ∃ t f, modelLlx ["x", "y"] eqsXY = .ok t ∧ t.count = 4 ∧
    (∀ e ∈ eqsXY, e.hasCmp = false) ∧
    (∀ x ∈ ["x", "y"], ∀ q, ∀ e ∈ eqsXY, OccursAt x q e → q = -1 ∨ q = 0 ∨ q = 1) ∧
    dynamicFunc intOps (fun _ => true) ["x", "y"] ["e"] t.toTyper scopeRho eqsXY[0] = .ok f ∧
    f [1, 20, 300, 4000, 7] = .ok 8 := by
  refine ⟨_, _, rfl, rfl, ?_, ?_, rfl, rfl⟩
  · intro e he; simp [eqsXY] at he; rcases he with rfl | rfl <;> rfl
  · intro x _ q e he ho
    simp [eqsXY] at he
    rcases he with rfl | rfl <;> simp [OccursAt, Expr.vars, Expr.pvars] at ho <;> omega

theorem dynamicFuncs_get {ops : Ops V} {okName : String → Bool} {endo exo : List String} {t : Typer}
    {σ : String → Option V} : ∀ {es : List (Expr V)} {fs : List (List V → Except Err V)},
    dynamicFuncs ops okName endo exo t σ es = .ok fs →
    fs.length = es.length ∧ ∀ (i : Nat) e, es[i]? = some e →
      ∃ f, fs[i]? = some f ∧ dynamicFunc ops okName endo exo t σ e = .ok f := by
  intro es
  induction es with
  | nil => intro fs h; cases h; simp
  | cons e es ih =>
    intro fs h
    simp only [dynamicFuncs, Except.bind_ok_iff, Except.ok.injEq] at h
    obtain ⟨f, h1, fs', h2, rfl⟩ := h
    obtain ⟨a, b⟩ := ih h2
    refine ⟨by simp [a], ?_⟩
    intro i e' hi
    cases i with
    | zero => simp at hi; subst hi; exact ⟨f, rfl, h1⟩
    | succ i => exact b i e' (by simpa using hi)

theorem callAll_get {vec : List V} : ∀ {fs : List (List V → Except Err V)} {vs : List V},
    callAll fs vec = .ok vs → vs.length = fs.length ∧ ∀ (i : Nat) f, fs[i]? = some f →
      ∃ v, vs[i]? = some v ∧ f vec = .ok v := by
  intro fs
  induction fs with
  | nil => intro vs h; cases h; simp
  | cons f fs ih =>
    intro vs h
    simp only [callAll, Except.bind_ok_iff, Except.ok.injEq] at h
    obtain ⟨v, h1, vs', h2, rfl⟩ := h
    obtain ⟨a, b⟩ := ih h2
    refine ⟨by simp [a], ?_⟩
    intro i f' hi
    cases i with
    | zero => simp at hi; subst hi; exact ⟨v, rfl, h1⟩
    | succ i => exact b i f' (by simpa using hi)

/-- **C33 for all equations at once**, the part that holds: the vector of residuals of a model has
one entry for each equation, in their order, and each is the value of left minus right; when the
shocks are left out of the argument they are taken to be zero. -/
theorem C33_residual_vector_partial [Zero V] (ops : Ops V) (okName : String → Bool)
    (endo exo : List String) (es : List (Expr V)) (t : Llx) (σ : String → Option V)
    (ht : modelLlx endo es = .ok t) (hc : ∀ e ∈ es, e.hasCmp = false)
    (hstd : ∀ x ∈ endo, ∀ q, ∀ e ∈ es, OccursAt x q e → q = -1 ∨ q = 0 ∨ q = 1)
    (hvar : ∀ e ∈ es, ∀ x ∈ e.vars, σ x ≠ none ∨ x ∈ endo ∨ x ∈ exo)
    (hper : ∀ e ∈ es, ∀ x o, (x, o) ∈ e.pvars → x ∈ endo ∧ (o = -1 ∨ o = 1))
    {fs : List (List V → Except Err V)}
    (hfs : dynamicFuncs ops okName endo exo t.toTyper σ es = .ok fs)
    {vec vs : List V} (hcall : dynamicCall t exo.length fs vec = .ok vs) :
    vs.length = es.length ∧ ∃ full : List V, full.length = t.count + exo.length ∧
      (full = vec ∨ full = vec ++ List.replicate exo.length 0) ∧
      ∀ (i : Nat) l r, es[i]? = some (.bin .sub l r) → ∃ v, vs[i]? = some v ∧ ∃ a b,
        PEvals ops (ReadsVar σ endo exo t full) (ReadsAt endo t.toTyper full) l a ∧
        PEvals ops (ReadsVar σ endo exo t full) (ReadsAt endo t.toTyper full) r b ∧
        ops.bin .sub a b = .ok v := by
  obtain ⟨f1, f2⟩ := dynamicFuncs_get hfs
  have main : ∀ full : List V, full.length = t.count + exo.length → callAll fs full = .ok vs →
      (full = vec ∨ full = vec ++ List.replicate exo.length 0) → vs.length = es.length ∧
      ∃ full : List V, full.length = t.count + exo.length ∧
      (full = vec ∨ full = vec ++ List.replicate exo.length 0) ∧
      ∀ (i : Nat) l r, es[i]? = some (.bin .sub l r) → ∃ v, vs[i]? = some v ∧ ∃ a b,
        PEvals ops (ReadsVar σ endo exo t full) (ReadsAt endo t.toTyper full) l a ∧
        PEvals ops (ReadsVar σ endo exo t full) (ReadsAt endo t.toTyper full) r b ∧
        ops.bin .sub a b = .ok v := by
    intro full hl hcl hor
    obtain ⟨c1, c2⟩ := callAll_get hcl
    refine ⟨c1.trans f1, full, hl, hor, ?_⟩
    intro i l r hi
    obtain ⟨f, hf, hf'⟩ := f2 i _ hi
    obtain ⟨v, hv, hv'⟩ := c2 i f hf
    have hm := List.mem_of_getElem? hi
    refine ⟨v, hv, ?_⟩
    exact (C33_dynamic_residual_partial ops okName endo exo es t σ ht hc hstd hm
      (fun x hx => hvar _ hm x (by simpa [Expr.vars] using hx))
      (fun x o hx => hper _ hm x o (by simpa [Expr.pvars] using hx)) hf' hl v).mp hv'
  unfold dynamicCall at hcall
  split at hcall
  · exact main vec ‹_› hcall (.inl rfl)
  · split at hcall
    · exact main _ (by simp [*]) hcall (.inr rfl)
    · cases hcall

example : ∃ t fs, modelLlx ["x", "y"] eqsXY = .ok t ∧
    dynamicFuncs intOps (fun _ => true) ["x", "y"] ["e"] t.toTyper scopeRho eqsXY = .ok fs ∧
    dynamicCall t 1 fs [1, 20, 300, 4000, 7] = .ok [8, -3700] ∧
    dynamicCall t 1 fs [1, 20, 300, 4000] = .ok [15, -3700] := ⟨_, _, rfl, rfl, rfl, rfl⟩

/-- **C33 is false**, first way: `x(0)` is read as the lag of `x`. -/
theorem C33_zero_offset_reads_lag : ∃ t f,
    modelLlx ["x"] [(.bin .sub (.pvar "x" 0) (.pvar "x" (-1)) : Expr Int)] = .ok t ∧
    dynamicFunc intOps (fun _ => true) ["x"] [] t.toTyper (fun _ => none)
      (.bin .sub (.pvar "x" 0) (.pvar "x" (-1))) = .ok f ∧
    t.cell 1 0 = some 1 ∧ t.cell 0 0 = some 0 ∧ f [10, 100] = .ok 0 :=
  ⟨_, _, rfl, rfl, rfl, rfl, rfl⟩

/-- **C33 is false**, second way: an equation that mentions a name that is neither parameter nor
endogenous nor one of the shocks – a `varexo_det` variable – raises `KeyError` when called. -/
theorem C33_determ_raises : ∃ t f,
    modelLlx ["x"] [(.bin .sub (.var "x") (.var "d") : Expr Int)] = .ok t ∧
    dynamicFunc intOps (fun _ => true) ["x"] [] t.toTyper (fun _ => none)
      (.bin .sub (.var "x") (.var "d")) = .ok f ∧ f [10] matches .error .keyError :=
  ⟨_, _, rfl, rfl, rfl⟩

/-- **C29 is false** for residuals too: in a model where `x` also occurs at the periods -1, 0, 1,
an occurrence `x(-2)` is silently read as `x(-1)`. -/
theorem C29_second_lag_read_as_first : ∃ t f,
    modelLlx ["x"] [(.bin .sub (.var "x") (.bin .add (.pvar "x" (-2))
      (.bin .mul (.pvar "x" (-1)) (.pvar "x" 1))) : Expr Int)] = .ok t ∧
    dynamicFunc intOps (fun _ => true) ["x"] [] t.toTyper (fun _ => none)
      (.bin .sub (.var "x") (.bin .add (.pvar "x" (-2))
        (.bin .mul (.pvar "x" (-1)) (.pvar "x" 1)))) = .ok f ∧
    t.count = 3 ∧ f [10, 100, 0] = .ok 90 := ⟨_, _, rfl, rfl, rfl, rfl⟩

/-! ### C34: the steady residual -/

/-- the value of a steady residual function in terms of names -/
theorem steadyFunc_run [Zero V] {ops : Ops V} {okName : String → Bool} {endo : List String}
    {σ : String → Option V} {e : Expr V} {f : List V → Except Err V}
    (hcp : e.compound = true) (hf : steadyFunc ops okName endo σ e = .ok f) {ss : List V}
    (hss : ss.length = endo.length) :
    endo.Nodup ∧ ∃ d : Dict V,
      f ss = evalP ops (withVals σ (steadyLook d)) (fun x _ => withVals σ (steadyLook d) x) e ∧
      ∀ x, Recorded σ (fun x _ => σ x) (fun x _ => x) e x → ∀ v, d.get? x = some v ↔
        ∃ i : Nat, endo[i]? = some x ∧ ss[i]? = some v := by
  simp only [steadyFunc, Except.bind_ok_iff] at hf
  obtain ⟨p, h1, ⟨⟩, h2, h3⟩ := hf
  simp only [Except.ok.injEq] at h3
  subst h3
  have hnd := (modelSignature_ok.mp h2).2
  refine ⟨hnd, ?_⟩
  rw [steadyMaybe_eq] at h1
  obtain ⟨d, hd1, hd2⟩ := pickVals_spec p.2 endo [] ss hss hnd (fun _ _ => rfl)
  obtain ⟨a, b⟩ := subTree_spec (ops := ops) (lv := steadyLook d)
    (lp := fun x _ => steadyLook d x) e (e1 := p.1) (ns := p.2) h1
  rw [mbGen_compound (subTree_compound (e1 := p.1) (ns := p.2) h1 hcp)] at a b
  refine ⟨d, ?_, ?_⟩
  · simp only [runSteady, hd1]
    exact a
  · intro z hz v
    have hm : z ∈ p.2 := by have := (b z).mpr hz; simpa using this
    rw [hd2 z v]
    simp [Dict.get?, hm]

/-- what a name is read as -/
theorem steadyFunc_reads [Zero V] {σ : String → Option V} {endo : List String} {ss : List V}
    (hss : ss.length = endo.length) {d : Dict V} {x : String}
    (hd : σ x = none → ∀ v, d.get? x = some v ↔ ∃ i : Nat, endo[i]? = some x ∧ ss[i]? = some v)
    (hnd : endo.Nodup) (v : V) :
    withVals σ (steadyLook d) x = .ok v ↔ ReadsSteady σ endo ss x v := by
  unfold withVals
  cases hσ : σ x with
  | some w =>
    constructor
    · intro h; cases h; exact .param hσ
    · rintro (h | ⟨h, _⟩ | ⟨h, _⟩)
      · rw [hσ] at h; cases h; rfl
      · rw [hσ] at h; cases h
      · rw [hσ] at h; cases h
  | none =>
    show steadyLook d x = .ok v ↔ _
    have hd := hd hσ
    unfold steadyLook
    by_cases hx : x ∈ endo
    · obtain ⟨i, hi⟩ := List.getElem?_of_mem hx
      have hil : i < ss.length := by rw [hss]; exact (List.getElem?_eq_some_iff.mp hi).1
      have hsi := List.getElem?_eq_getElem hil
      have hdx := (hd _).mpr ⟨i, hi, hsi⟩
      rw [hdx]
      constructor
      · intro h; cases h; exact .endog hσ hi hsi
      · rintro (h | ⟨_, h1, h2⟩ | ⟨_, h⟩)
        · rw [hσ] at h; cases h
        · have := getElem?_inj_of_nodup hnd h1 hi
          subst this
          rw [hsi] at h2; cases h2; rfl
        · exact absurd hx h
    · have hdx : d.get? x = none := by
        cases hh : d.get? x with
        | none => rfl
        | some w =>
          obtain ⟨i, hi, _⟩ := (hd w).mp hh
          exact absurd (List.mem_of_getElem? hi) hx
      rw [hdx]
      constructor
      · intro h; cases h; exact .shock hσ hx
      · rintro (h | ⟨_, h1, h2⟩ | ⟨_, h⟩)
        · rw [hσ] at h; cases h
        · exact absurd (List.mem_of_getElem? h1) hx
        · rfl

/-- **C34.** The steady residual function of `left = right`, once made, called on one value for
each endogenous variable, returns a value exactly when it is the value of `left - right` with every
name, whatever its period, read as the value of the parameter, the steady value of the variable, or
zero. -/
theorem C34_steady_residual [Zero V] (ops : Ops V) (okName : String → Bool) (endo : List String)
    (σ : String → Option V) (l r : Expr V) {f : List V → Except Err V}
    (hf : steadyFunc ops okName endo σ (.bin .sub l r) = .ok f) {ss : List V}
    (hss : ss.length = endo.length) (v : V) :
    f ss = .ok v ↔ ∃ a b,
      PEvals ops (ReadsSteady σ endo ss) (fun x _ => ReadsSteady σ endo ss x) l a ∧
      PEvals ops (ReadsSteady σ endo ss) (fun x _ => ReadsSteady σ endo ss x) r b ∧
      ops.bin .sub a b = .ok v := by
  obtain ⟨hnd, d, h1, h2⟩ := steadyFunc_run rfl hf hss
  have hV : ∀ x, x ∈ (Expr.bin .sub l r).vars → ∀ v,
      withVals σ (steadyLook d) x = .ok v ↔ ReadsSteady σ endo ss x v := fun x hx v =>
    steadyFunc_reads hss (fun hσ => h2 x (.inl ⟨x, hx, hσ, rfl⟩)) hnd v
  have hP : ∀ x o, (x, o) ∈ (Expr.bin .sub l r).pvars → ∀ v,
      withVals σ (steadyLook d) x = .ok v ↔ ReadsSteady σ endo ss x v := fun x o hx v =>
    steadyFunc_reads hss (fun hσ => h2 x (.inr ⟨x, o, hx, hσ, rfl⟩)) hnd v
  rw [h1, evalP_iff]
  constructor
  · intro h
    have h := h.congr (fun x hx v h => (hV x hx v).mp h) (fun x o hx v h => (hP x o hx v).mp h)
    cases h with
    | bin ha hb hs => exact ⟨_, _, ha, hb, hs⟩
  · rintro ⟨a, b, ha, hb, hs⟩
    exact (PEvals.bin ha hb hs).congr (fun x hx v h => (hV x hx v).mpr h)
      (fun x o hx v h => (hP x o hx v).mpr h)

/-- hypotheses met, with the values -/
example : ∃ f, steadyFunc intOps (fun _ => true) ["x", "y"] scopeRho eqsXY[0] = .ok f ∧
    f [3, 100] = .ok (-12) := ⟨_, rfl, rfl⟩

/-- when the steady residual function is made at all -/
theorem C34_construction [Zero V] (ops : Ops V) (okName : String → Bool) (endo : List String)
    (σ : String → Option V) (e : Expr V) (hc : e.hasCmp = false) :
    (∃ f, steadyFunc ops okName endo σ e = .ok f) ↔
      (∀ x ∈ endo, okName x = true) ∧ endo.Nodup := by
  obtain ⟨p, hp⟩ := subTree_ok (σ := σ) (τ := fun x _ => σ x) (nm := fun x _ => x) e hc
  rw [← steadyMaybe_eq] at hp
  rw [← modelSignature_ok (okName := okName)]
  simp only [steadyFunc, hp]
  constructor
  · rintro ⟨f, h⟩
    have h : (modelSignature okName endo >>= fun _ => _) = Except.ok f := h
    rw [Except.bind_ok_iff] at h
    obtain ⟨⟨⟩, h, _⟩ := h
    exact h
  · intro h; rw [h]; exact ⟨_, rfl⟩

example : ∃ f, steadyFunc intOps (fun x => x != "lambda") ["x", "y"] scopeRho eqsXY[0] = .ok f :=
  (C34_construction _ _ _ _ _ rfl).mpr ⟨by decide, by decide⟩

/-! ### C35: agreement at rest -/

/-- **C35.** In a model whose table was made from its equations, whose names with an offset are
endogenous variables other than parameters at periods -1 or 1 and whose plain names are parameters,
endogenous variables or shocks, the dynamic residual at the linearisation point made from a vector
of steady values and the steady residual at that vector are the same, errors included. -/
theorem C35_agree_at_rest_partial [Zero V] (ops : Ops V) (okName okName' : String → Bool)
    (endo exo : List String) (es : List (Expr V)) (t : Llx) (σ : String → Option V)
    (ht : modelLlx endo es = .ok t) (hc : ∀ e ∈ es, e.hasCmp = false)
    (hstd : ∀ x ∈ endo, ∀ q, ∀ e ∈ es, OccursAt x q e → q = -1 ∨ q = 0 ∨ q = 1)
    {e : Expr V} (hcp : e.compound = true) (he : e ∈ es)
    (hvar : ∀ x ∈ e.vars, σ x ≠ none ∨ x ∈ endo ∨ x ∈ exo)
    (hper : ∀ x o, (x, o) ∈ e.pvars → x ∈ endo ∧ σ x = none ∧ (o = -1 ∨ o = 1))
    {f g : List V → Except Err V}
    (hf : dynamicFunc ops okName endo exo t.toTyper σ e = .ok f)
    (hg : steadyFunc ops okName' endo σ e = .ok g)
    {ss : List V} (hss : ss.length = endo.length) :
    f (linPoint t.toTyper exo.length ss) = g ss := by
  obtain ⟨pss, hb⟩ := modelLlx_build ht
  have hlen := dynVars_length hb endo exo
  have hpl := places_length hb
  obtain ⟨hnd, d, h1, h2⟩ := dynamicFunc_run hcp hf (vec := linPoint t.toTyper exo.length ss)
    (by rw [hlen]; simp [linPoint, hpl])
  obtain ⟨hndE, d', h1', h2'⟩ := steadyFunc_run hcp hg hss
  -- an endogenous occurrence
  have key : ∀ x (p : Int), x ∈ endo → (p = -1 ∨ p = 0 ∨ p = 1) → OccursAt x p e → σ x = none →
      Recorded σ (fun _ _ => none) offsetName e (suffixName (p + 1).toNat x) →
      Recorded σ (fun x _ => σ x) (fun x _ => x) e x →
      dynLook d (suffixName (p + 1).toNat x) = steadyLook d' x := by
    intro x p hx hp ho hσ hr hr'
    obtain ⟨c, hcx⟩ := List.getElem?_of_mem hx
    obtain ⟨k, hk⟩ := modelLlx_cell ht hc hcx hp (fun q e he ho => hstd x hx q e he ho) he ho
    have hcl : c < ss.length := by rw [hss]; exact (List.getElem?_eq_some_iff.mp hcx).1
    have hsc := List.getElem?_eq_getElem hcl
    have hplk := (places_get hb).mp hk
    have hkl : k < t.places.length := (List.getElem?_eq_some_iff.mp hplk).1
    have hval : (linPoint t.toTyper exo.length ss)[k]? = some ss[c] := by
      unfold linPoint
      rw [List.getElem?_append_left (by simpa using hkl), List.getElem?_map, hplk]
      simp [hsc]
    rw [(h2 _ ss[c] hr).mpr ⟨k, dynVars_endog hb hcx hk, hval⟩]
    simp [steadyLook, (h2' x hr' ss[c]).mpr ⟨c, hcx, hsc⟩]
  rw [h1, h1']
  refine evalP_congr ops e ?_ ?_
  · intro x hx
    unfold withVals
    cases hσ : σ x with
    | some w => rfl
    | none =>
      show dynLook d x = steadyLook d' x
      have hr : Recorded σ (fun _ _ => none) offsetName e x := .inl ⟨x, hx, hσ, rfl⟩
      have hr' : Recorded σ (fun x _ => σ x) (fun x _ => x) e x := .inl ⟨x, hx, hσ, rfl⟩
      have e0 : suffixName ((0 : Int) + 1).toNat x = x := suffixName_one x
      rcases hvar x hx with h' | h' | h'
      · exact absurd hσ h'
      · have := key x 0 h' (.inr (.inl rfl)) (.inl ⟨rfl, hx⟩) hσ (by rw [e0]; exact hr) hr'
        rwa [e0] at this
      · by_cases hxe : x ∈ endo
        · have := key x 0 hxe (.inr (.inl rfl)) (.inl ⟨rfl, hx⟩) hσ (by rw [e0]; exact hr) hr'
          rwa [e0] at this
        · obtain ⟨j, hj⟩ := List.getElem?_of_mem h'
          have hjl : j < exo.length := (List.getElem?_eq_some_iff.mp hj).1
          have hval : (linPoint t.toTyper exo.length ss)[t.count + j]? = some 0 := by
            unfold linPoint
            rw [List.getElem?_append_right (by simp [hpl])]
            simp [hpl, hjl]
          rw [(h2 x 0 hr).mpr ⟨_, dynVars_shock hb hj, hval⟩]
          have hdx : d'.get? x = none := by
            cases hh : d'.get? x with
            | none => rfl
            | some w =>
              obtain ⟨i, hi, _⟩ := (h2' x hr' w).mp hh
              exact absurd (List.mem_of_getElem? hi) hxe
          simp [steadyLook, hdx]
  · intro x o hx
    obtain ⟨hm, hσ, ho⟩ := hper x o hx
    have hr : Recorded σ (fun _ _ => none) offsetName e (offsetName x o) :=
      .inr ⟨x, o, hx, rfl, rfl⟩
    have hr' : Recorded σ (fun x _ => σ x) (fun x _ => x) e x := .inr ⟨x, o, hx, hσ, rfl⟩
    have := key x o hm (by rcases ho with h | h <;> simp [h]) (.inr hx) hσ
      (by rw [suffixName_offset ho]; exact hr) hr'
    rw [suffixName_offset ho] at this
    simpa [withVals, hσ] using this

/-- hypotheses met, with the common value -/
example : ∃ t f g, modelLlx ["x", "y"] eqsXY = .ok t ∧
    dynamicFunc intOps (fun _ => true) ["x", "y"] ["e"] t.toTyper scopeRho eqsXY[0] = .ok f ∧
    steadyFunc intOps (fun _ => true) ["x", "y"] scopeRho eqsXY[0] = .ok g ∧
    f (linPoint t.toTyper 1 [3, 100]) = .ok (-12) ∧ g [3, 100] = .ok (-12) :=
  ⟨_, _, _, rfl, rfl, rfl, rfl, rfl⟩

/-- **C35 is false** without its hypotheses: an equation with a `varexo_det` variable has a steady
residual but no dynamic one. -/
theorem C35_determ_disagrees : ∃ t f g,
    modelLlx ["x"] [(.bin .sub (.var "x") (.var "d") : Expr Int)] = .ok t ∧
    dynamicFunc intOps (fun _ => true) ["x"] [] t.toTyper (fun _ => none)
      (.bin .sub (.var "x") (.var "d")) = .ok f ∧
    steadyFunc intOps (fun _ => true) ["x"] (fun _ => none) (.bin .sub (.var "x") (.var "d")) = .ok g ∧
    (f (linPoint t.toTyper 0 [10]) matches .error .keyError) ∧ g [10] = .ok 10 :=
  ⟨_, _, _, rfl, rfl, rfl, rfl, rfl⟩

/-! ### C41: texts and functions stay aligned -/

theorem pyIndex_ok {n : Nat} {key : Int} {i : Nat} : pyIndex n key = .ok i ↔
    (0 ≤ key ∧ key < n ∧ i = key.toNat) ∨ (key < 0 ∧ 0 ≤ key + n ∧ i = (key + n).toNat) := by
  unfold pyIndex
  split
  · simp only [Except.ok.injEq]; omega
  · split
    · simp only [Except.ok.injEq]; omega
    · simp only [reduceCtorEq, false_iff]; omega

theorem map_eraseIdx' {α β : Type} (f : α → β) (xs : List α) : ∀ i,
    (xs.eraseIdx i).map f = (xs.map f).eraseIdx i := by
  induction xs with
  | nil => intro i; rfl
  | cons x xs ih => intro i; cases i <;> simp [ih]

theorem insertIdx_take_drop {α : Type} (a : α) (xs : List α) : ∀ i, i ≤ xs.length →
    xs.insertIdx i a = xs.take i ++ a :: xs.drop i := by
  induction xs with
  | nil => intro i hi; cases i with
    | zero => rfl
    | succ => simp at hi
  | cons x xs ih =>
    intro i hi
    cases i with
    | zero => rfl
    | succ i => simp [ih i (by simpa using hi)]

/-- one edit -/
theorem C41_edit {parse : String → Except Err (Expr V)} {as : List (ExprArg V)} {m m' : ModelExprs V}
    (h : Holds parse as m) (ed : ExprEdit V) (hr : ed.run parse m = .ok m') :
    ∃ as', ed.onList as = some as' ∧ Holds parse as' m' := by
  obtain ⟨h1, h2⟩ := h
  have hl1 : as.length = m.exprs.length := by simpa using congrArg List.length h1
  have hl2 : m.strs.length = as.length := by simpa using congrArg List.length h2
  have hins : ∀ key a, m.insert parse key a = .ok m' → ∀ i : Nat,
      i = (if 0 ≤ key then min key.toNat as.length else (key + as.length).toNat) → i ≤ as.length →
      Holds parse (as.take i ++ a :: as.drop i) m' := by
    intro key a hr i hi hle
    simp only [ModelExprs.insert, Except.bind_ok_iff, Except.ok.injEq] at hr
    obtain ⟨e, he, rfl⟩ := hr
    have hp1 : pyInsertPos m.exprs.length key = i := by rw [pyInsertPos, ← hl1, hi]
    have hp2 : pyInsertPos m.strs.length key = i := by rw [pyInsertPos, hl2, hi]
    refine ⟨?_, ?_⟩
    · simp only [pyInsert, hp1]
      rw [insertIdx_take_drop _ _ _ (by omega)]
      simp only [List.map_append, List.map_cons, List.map_take, List.map_drop, h1, he]
    · simp only [pyInsert, hp2]
      rw [insertIdx_take_drop _ _ _ (by omega), h2]
      simp
  cases ed with
  | set key a =>
    simp only [ExprEdit.run, ModelExprs.setItem, Except.bind_ok_iff, Except.ok.injEq] at hr
    obtain ⟨e, he, i, hi, j, hj, rfl⟩ := hr
    rw [pyIndex_ok] at hi hj
    have hij : j = i := by omega
    subst hij
    have hh : Holds parse (as.set j a) ⟨m.exprs.set j e, m.strs.set j a.str⟩ := by
      refine ⟨?_, ?_⟩
      · simp only [List.map_set, h1, he]
      · simp only [List.map_set, h2]
    refine ⟨as.set j a, ?_, hh⟩
    simp only [ExprEdit.onList]
    rcases hi with ⟨a1, a2, a3⟩ | ⟨a1, a2, a3⟩
    · rw [if_pos ⟨a1, by omega⟩, a3]
    · rw [if_neg (by omega), if_pos ⟨a1, by omega⟩, a3, hl1]
  | insert key a =>
    refine ⟨_, rfl, hins key a hr _ rfl ?_⟩
    split <;> omega
  | append a =>
    refine ⟨as ++ [a], rfl, ?_⟩
    have := hins _ a hr as.length (by rw [if_pos (by omega)]; omega) (Nat.le_refl _)
    simpa using this
  | del key =>
    simp only [ExprEdit.run, ModelExprs.del, Except.bind_ok_iff, Except.ok.injEq] at hr
    obtain ⟨i, hi, j, hj, rfl⟩ := hr
    rw [pyIndex_ok] at hi hj
    have hij : j = i := by omega
    subst hij
    have hh : Holds parse (as.eraseIdx j) ⟨m.exprs.eraseIdx j, m.strs.eraseIdx j⟩ := by
      refine ⟨?_, ?_⟩
      · show (as.eraseIdx j).map _ = (m.exprs.eraseIdx j).map _
        rw [map_eraseIdx', map_eraseIdx', h1]
      · show m.strs.eraseIdx j = _
        rw [map_eraseIdx', h2]
    refine ⟨as.eraseIdx j, ?_, hh⟩
    simp only [ExprEdit.onList]
    rcases hi with ⟨a1, a2, a3⟩ | ⟨a1, a2, a3⟩
    · rw [if_pos ⟨a1, by omega⟩, a3]
    · rw [if_neg (by omega), if_pos ⟨a1, by omega⟩, a3, hl1]

theorem parseAll_map {parse : String → Except Err (Expr V)} : ∀ {as : List (ExprArg V)} {es},
    parseAll parse as = .ok es → as.map (ExprArg.parse parse) = es.map .ok := by
  intro as
  induction as with
  | nil => intro es h; cases h; rfl
  | cons a as ih =>
    intro es h
    simp only [parseAll, Except.bind_ok_iff, Except.ok.injEq] at h
    obtain ⟨e, h1, es', h2, rfl⟩ := h
    simp [h1, ih h2]

/-- **C41.** A container made from a list of equations (not from a generator), after any history of
replacements, insertions, additions and deletions – those that raise included, which change
nothing – holds exactly the equations the user's own list holds after the same edits, in the same
order: its `i`-th tree is the tree of the `i`-th and its `i`-th text is the text of the `i`-th. -/
theorem C41_aligned_partial (parse : String → Except Err (Expr V)) (as : List (ExprArg V))
    {m : ModelExprs V} (h : ModelExprs.init parse as true = .ok m) (eds : List (ExprEdit V)) :
    Holds parse (runEdits parse eds (m, as)).2 (runEdits parse eds (m, as)).1 := by
  have h0 : Holds parse as m := by
    simp only [ModelExprs.init, Except.bind_ok_iff, Except.ok.injEq] at h
    obtain ⟨es, h1, rfl⟩ := h
    exact ⟨parseAll_map h1, rfl⟩
  clear h
  induction eds generalizing m as with
  | nil => exact h0
  | cons ed eds ih =>
    unfold runEdits
    cases hr : ed.run parse m with
    | error x => exact ih as h0
    | ok m' =>
      obtain ⟨as', h1, h2⟩ := C41_edit h0 ed hr
      show Holds parse (runEdits parse eds (m', (ed.onList as).getD as)).2
        (runEdits parse eds (m', (ed.onList as).getD as)).1
      rw [h1]
      exact ih as' h2

/-- **C41**, consequence: the `i`-th residual function of the resulting container is the function of
the tree that the `i`-th text stands for. -/
theorem C41_function_of_text {parse : String → Except Err (Expr V)} {as : List (ExprArg V)}
    {m : ModelExprs V} (h : Holds parse as m) {ops : Ops V} {okName : String → Bool}
    {endo exo : List String} {t : Typer} {σ : String → Option V}
    {fs : List (List V → Except Err V)}
    (hfs : dynamicFuncs ops okName endo exo t σ m.exprs = .ok fs) (i : Nat) (s : String)
    (hs : as[i]? = some (.text s)) :
    m.strs[i]? = some s ∧ ∃ e f, parse s = .ok e ∧ fs[i]? = some f ∧
      dynamicFunc ops okName endo exo t σ e = .ok f := by
  obtain ⟨h1, h2⟩ := h
  refine ⟨by rw [h2]; simp [hs, ExprArg.str], ?_⟩
  have hi := congrArg (fun l => l[i]?) h1
  simp only [List.getElem?_map, hs, Option.map_some] at hi
  cases he : m.exprs[i]? with
  | none => rw [he] at hi; cases hi
  | some e =>
    rw [he] at hi
    simp only [Option.map_some, Option.some.injEq] at hi
    obtain ⟨f, hf1, hf2⟩ := (dynamicFuncs_get hfs).2 i e he
    exact ⟨e, f, hi, hf1, hf2⟩

/-- a toy parser for examples: a text is the variable of that name -/
def toyParse : String → Except Err (Expr Int) := fun s => .ok (.var s)

/-- hypotheses met, with the resulting texts -/
example : ∃ m, ModelExprs.init toyParse [.text "a", .tree (.num 3)] true = .ok m ∧
    (runEdits toyParse [.insert 1 (.text "b"), .del (-1), .set 7 (.text "z"), .append (.text "c")]
      (m, [.text "a", .tree (.num 3)])).1.strs = ["a", "b", "c"] := ⟨_, rfl, rfl⟩

/-- **C41 is false** for a container made from a generator of texts: the texts are lost, and after
one more equation the first text stands beside another equation's tree. -/
theorem C41_generator_loses_texts : ∃ m m',
    ModelExprs.init toyParse [.text "a", .text "b"] false = .ok m ∧ m.strs = [] ∧
    m.append toyParse (.text "c") = .ok m' ∧ m'.strs = ["c"] ∧
    m'.exprs = [.var "a", .var "b", .var "c"] := ⟨_, _, rfl, rfl, rfl, rfl, rfl⟩

#print axioms C33_dynamic_residual_partial
#print axioms C33_residual_vector_partial
#print axioms C34_steady_residual
#print axioms C35_agree_at_rest_partial
#print axioms C36_distinct_partial
#print axioms C41_aligned_partial

end Pynare
