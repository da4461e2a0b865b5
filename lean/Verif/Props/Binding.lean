import Verif.Lemmas.Binding
import Verif.Props.Derivs
import Verif.Props.ModelObj
/-!
# Constraints, the equations of alternative regimes, and the checks before a constrained solution (C113–C117)
-/

namespace Pynare

variable {V : Type}

/-! ### C113: a constraint is tested period by period -/

/-- The full statement: whenever both conditions have values in every period, evaluating the constraint along the
paths gives those values. -/
def TestedByPeriod (ops : Ops V) (elt : EltOps V) : Prop :=
  ∀ (endog : List String) (params : Dict V) (T : Nat) (paths : Nat → Nat → V) (ref alt : Expr V) (v w : Nat → V),
    endog.Nodup → params.keys.Nodup → 0 < T →
    (∀ t < T, eval ops (periodScope endog params (paths t)) ref = .ok (v t)) →
    (∀ t < T, eval ops (periodScope endog params (paths t)) alt = .ok (w t)) →
    constraintPair ops elt endog params T paths ref alt = .ok ((List.range T).map v, (List.range T).map w)

theorem pathCol_eq {T : Nat} {c : Prop} {v : Nat → V} {r : PathVal V} (h : PathOk T c v r) (hc : c) :
    r = .col ((List.range T).map v) := by
  cases r with
  | num w => exact absurd hc h.isNum
  | col l =>
    have hl := h.isCol.2
    congr 1
    refine List.ext_getElem? fun t => ?_
    by_cases ht : t < T
    · have := h.at_ t ht
      simpa [PathVal.at, ht] using this
    · rw [List.getElem?_eq_none (by omega), List.getElem?_eq_none (by simp; omega)]

/-- **C113, what holds.**  When both conditions mention a variable, the result has for each period the truth of the
two conditions for the values the variables have in that period.  What is missing: conditions that mention no variable,
see `C113_constant`. -/
theorem C113_rowwise_partial (ops : Ops V) (elt : EltOps V) (hag : elt.Agrees ops) (endog : List String)
    (params : Dict V) (T : Nat) (paths : Nat → Nat → V) (ref alt : Expr V) (v w : Nat → V) (hn : endog.Nodup)
    (hp : params.keys.Nodup) (hT : 0 < T)
    (hv : ∀ t < T, eval ops (periodScope endog params (paths t)) ref = .ok (v t))
    (hw : ∀ t < T, eval ops (periodScope endog params (paths t)) alt = .ok (w t))
    (hr : MentionsVar params ref) (ha : MentionsVar params alt) :
    constraintPair ops elt endog params T paths ref alt = .ok ((List.range T).map v, (List.range T).map w) := by
  obtain ⟨r, h1, h2⟩ := evalPath_ok hag hn hp hT paths ref v hv
  obtain ⟨s, h3, h4⟩ := evalPath_ok hag hn hp hT paths alt w hw
  rw [pathCol_eq h2 hr] at h1
  rw [pathCol_eq h4 ha] at h3
  simp [constraintPair, h1, h3, bind, Except.bind]

/-- **C113, what does not hold.**  A condition that mentions no variable, such as one in parameters alone, is refused
although it has a value in every period. -/
theorem C113_constant (ops : Ops V) (elt : EltOps V) (hag : elt.Agrees ops) (endog : List String)
    (params : Dict V) (T : Nat) (paths : Nat → Nat → V) (ref alt : Expr V) (v w : Nat → V) (hn : endog.Nodup)
    (hp : params.keys.Nodup) (hT : 0 < T)
    (hv : ∀ t < T, eval ops (periodScope endog params (paths t)) ref = .ok (v t))
    (hw : ∀ t < T, eval ops (periodScope endog params (paths t)) alt = .ok (w t))
    (hm : ¬ MentionsVar params ref ∨ ¬ MentionsVar params alt) :
    (¬ MentionsVar params ref ∧ ¬ MentionsVar params alt ∧
      constraintPair ops elt endog params T paths ref alt = .error .indexError) ∨
    ((MentionsVar params ref ∨ MentionsVar params alt) ∧
      constraintPair ops elt endog params T paths ref alt = .error .valueError) := by
  obtain ⟨r, h1, h2⟩ := evalPath_ok hag hn hp hT paths ref v hv
  obtain ⟨s, h3, h4⟩ := evalPath_ok hag hn hp hT paths alt w hw
  by_cases hr : MentionsVar params ref <;> by_cases ha : MentionsVar params alt
  · tauto
  · obtain ⟨x, rfl⟩ := h4.no ha
    rw [pathCol_eq h2 hr] at h1
    simp [constraintPair, h1, h3, bind, Except.bind, hr, ha]
  · obtain ⟨x, rfl⟩ := h2.no hr
    rw [pathCol_eq h4 ha] at h3
    simp [constraintPair, h1, h3, bind, Except.bind, hr, ha]
  · obtain ⟨x, rfl⟩ := h2.no hr
    obtain ⟨y, rfl⟩ := h4.no ha
    simp [constraintPair, h1, h3, bind, Except.bind, hr, ha]

/-- **C113, names.**  When a constraint has values, its conditions mention variables in the current period and
parameters only: leads, lags and shocks are refused. -/
theorem C113_names (ops : Ops V) (elt : EltOps V) (endog : List String) (params : Dict V) (T : Nat)
    (paths : Nat → Nat → V) (ref alt : Expr V) (hn : endog.Nodup) (hp : params.keys.Nodup) (l m : List V)
    (h : constraintPair ops elt endog params T paths ref alt = .ok (l, m)) :
    ∀ e, e = ref ∨ e = alt → e.pvars = [] ∧ ∀ x ∈ e.vars, x ∈ endog ∨ x ∈ params.keys := by
  have key : ∀ e r, evalPath ops elt endog params T paths e = .ok r →
      e.pvars = [] ∧ ∀ x ∈ e.vars, x ∈ endog ∨ x ∈ params.keys := by
    intro e r hr
    obtain ⟨h1, h2⟩ := eval_names hr
    obtain ⟨e1, e2⟩ := onPaths_names e
    refine ⟨e2 ▸ h1, fun x hx => ?_⟩
    obtain ⟨w, hw⟩ := h2 x (e1 ▸ hx)
    unfold dictScope at hw
    rw [pathScope_get hn hp] at hw
    cases hpx : params.get? x with
    | some a => exact .inr ((Dict.get?_isSome_iff params x).mp (by rw [hpx]; rfl))
    | none =>
      rw [hpx] at hw
      cases hi : endog.idxOf? x with
      | none => rw [hi] at hw; cases hw
      | some c =>
        left
        by_contra hx
        rw [List.idxOf?_eq_none_iff.mpr hx] at hi
        cases hi
  unfold constraintPair at h
  obtain ⟨r, h1, h⟩ := Except.bind_eq_ok h
  obtain ⟨s, h2, h⟩ := Except.bind_eq_ok h
  rintro e (rfl | rfl)
  · exact key _ _ h1
  · exact key _ _ h2

/-- arithmetic for the examples; the truth of a comparison is `1` or `0` -/
def cstOps : Ops Int where
  bin op a b := match op with
    | .add => .ok (a + b)
    | .sub => .ok (a - b)
    | .mul => .ok (a * b)
    | _ => .error .zeroDivision
  un op a := match op with
    | .pos => .ok a
    | .neg => .ok (-a)
  cmp op a b := match op with
    | .lt => .ok (if a < b then 1 else 0)
    | .le => .ok (if a ≤ b then 1 else 0)
    | .gt => .ok (if a > b then 1 else 0)
    | .ge => .ok (if a ≥ b then 1 else 0)
    | .eq => .ok (if a = b then 1 else 0)
  fn _ _ := .error .typeError

/-- the same on entries of arrays; what fails for numbers is `0` here -/
def cstElt : EltOps Int where
  bin o a b := (cstOps.bin o a b).toOption.getD 0
  un o a := (cstOps.un o a).toOption.getD 0
  cmp o a b := (cstOps.cmp o a b).toOption.getD 0
  fn f a := (cstOps.fn f a).toOption.getD 0

theorem cst_agrees : cstElt.Agrees cstOps where
  bin o a b v h := by simp [cstElt, h, Except.toOption]
  un o a v h := by simp [cstElt, h, Except.toOption]
  cmp o a b v h := by simp [cstElt, h, Except.toOption]
  fn f a v h := by simp [cstElt, h, Except.toOption]

/-- **C113 is false of the code**: with a parameter `phi`, the condition `phi > 0` has a value in every period, and
is refused. -/
theorem C113_false : ¬ TestedByPeriod cstOps cstElt := by
  intro h
  have := h ["i"] [("phi", 1)] 1 (fun _ _ => 0) (.cmp .gt (.var "phi") (.num 0)) (.cmp .lt (.var "i") (.num 0))
    (fun _ => 1) (fun _ => 0) (by decide) (by decide) (by decide) (fun _ _ => rfl) (fun _ _ => rfl)
  exact absurd this (by
    rw [show constraintPair cstOps cstElt ["i"] [("phi", 1)] 1 (fun _ _ => 0) (.cmp .gt (.var "phi") (.num 0))
      (.cmp .lt (.var "i") (.num 0)) = .error .valueError from rfl]
    simp)

/-- the hypotheses of C113 are met: the interest rate `i` must not fall below `lo = -1`; on the path `2, -3` the
first condition (`i < lo`) is true in the second period -/
example : ∃ ref alt : Expr Int, MentionsVar [("lo", (-1 : Int))] ref ∧ MentionsVar [("lo", (-1 : Int))] alt ∧
    constraintPair cstOps cstElt ["c", "i"] [("lo", -1)] 2 (fun t c => if c = 0 then 7 else if t = 0 then 2 else -3) ref alt =
      .ok ([0, 1], [1, 0]) := by
  refine ⟨.cmp .lt (.var "i") (.var "lo"), .cmp .ge (.var "i") (.var "lo"), ⟨"i", by decide, by decide⟩,
    ⟨"i", by decide, by decide⟩, ?_⟩
  refine (C113_rowwise_partial cstOps cstElt cst_agrees ["c", "i"] [("lo", -1)] 2 _ _ _
    (fun t => if t = 0 then 0 else 1) (fun t => if t = 0 then 1 else 0) (by decide) (by decide) (by decide) ?_ ?_
    ⟨"i", by decide, by decide⟩ ⟨"i", by decide, by decide⟩).trans rfl
  · intro t _
    by_cases h : t = 0 <;> simp [eval, periodScope, h, Dict.get?, cstOps, List.idxOf?_cons, bind, Except.bind]
  · intro t _
    by_cases h : t = 0 <;> simp [eval, periodScope, h, Dict.get?, cstOps, List.idxOf?_cons, bind, Except.bind]

/-! ### C114: the linear equations of an alternative regime -/

section
variable [Field V] [LinearOrder V]

/-- The full statement: whatever exact derivatives are used, the linear equations used for an alternative regime, whose
own steady state is `ssAlt`, approximate its equations about the steady state `ssRef` of the reference model. -/
def RegimesApproximate (V : Type) [Field V] [LinearOrder V] : Prop :=
  ∀ (ad : Autograd V), ad.Exact → ∀ (pss : List (List Int)) (t : Llx), buildLlx pss = .ok t →
    ∀ (nExog : Nat) (fs : List (List V → Except Err V)) (ssRef ssAlt : List V), fs.length = pss.length →
    ssRef.length = t.n → ssAlt.length = t.n →
    dynamicCall t nExog fs (linPoint t.toTyper nExog ssAlt) = .ok (List.replicate fs.length 0) →
    ∀ R, altArrays ad t nExog fs ssRef ssAlt = .ok R → Approximates t nExog fs ssRef R

theorem takeAll_eq {ss : List V} : ∀ {is : List Nat}, (∀ i ∈ is, i < ss.length) →
    takeAll ss is = .ok (is.map fun i => ss[i]?.getD 0) := by
  intro is
  induction is with
  | nil => intro _; rfl
  | cons i is ih =>
    intro h
    have hi : i < ss.length := h i (by simp)
    rw [takeAll, List.getElem?_eq_getElem hi]
    simp [ih fun j hj => h j (by simp [hj]), bind, Except.bind, List.getElem?_eq_getElem hi]

/-- **C114, the constant.**  The constant of an alternative regime is what its equations leave over when everything is
at the steady state of the reference model and there are no shocks. -/
theorem C114_constant {pss : List (List Int)} {t : Llx} (ht : buildLlx pss = .ok t) (nExog : Nat)
    (fs : List (List V → Except Err V)) (ssRef : List V) (hss : ssRef.length = t.n) :
    regimeConst t nExog fs ssRef = callAll fs (linPoint t.toTyper nExog ssRef) := by
  have hpl : t.places.map Prod.snd = t.state ++ t.cont ++ t.forward := by
    simp [Typer.places, List.range_succ, Typer.state, Typer.cont, Typer.forward, Function.comp_def]
  have hmem : ∀ i ∈ t.state ++ t.cont ++ t.forward, i < ssRef.length := by
    intro i hi
    rw [hss]
    simp only [Typer.state, Typer.cont, Typer.forward, Typer.sel, List.mem_append, List.mem_filter,
      List.mem_range] at hi
    tauto
  unfold regimeConst translateSs
  rw [takeAll_eq hmem, ← hpl, List.map_map]
  have hl := places_length ht
  show dynamicCall t nExog fs _ = _
  unfold dynamicCall linPoint
  by_cases hx : nExog = 0
  · subst hx
    simp [hl, Function.comp_def]
  · rw [if_neg (by simp [hl, hx]), if_pos (by simp [hl])]
    rfl

variable [IsStrictOrderedRing V]

theorem row_linearised (t : Llx) (nExog : Nat) (J : Arr V) (D : Nat → V) (i : Nat) (ym y yp u : Nat → V) :
    (Regime.ofJacobian t nExog J D).row t.n nExog i ym y yp u = linearised t nExog J i ym y yp u + D i := by
  have hr : ∀ r (y : Nat → V), (sumTo t.n fun c => (jacobianRow t.toTyper J r).e i c * y c) = rowPart t.toTyper J i r y := by
    intro r y
    unfold rowPart
    refine sumTo_congr fun c _ => ?_
    unfold jacobianRow
    dsimp only
    cases t.cell r c <;> simp
  unfold Regime.row Regime.ofJacobian linearised
  simp only [hr]

/-- **C114, what holds.**  The linear equations used for an alternative regime approximate its equations about the
steady state of the reference model when its equations have the same derivatives there as at its own steady state.
What is missing: all other regimes; the code takes derivatives at the steady state of the alternative model. -/
theorem C114_approximates_partial (ad : Autograd V) (hex : ad.Exact) (pss : List (List Int)) (t : Llx)
    (ht : buildLlx pss = .ok t) (nExog : Nat) (fs : List (List V → Except Err V)) (ssRef ssAlt : List V)
    (hss : ssRef.length = t.n)
    (hsame : ∀ f ∈ fs, ∀ g, IsDerivAt f (linPoint t.toTyper nExog ssAlt) g →
      IsDerivAt f (linPoint t.toTyper nExog ssRef) g)
    (R : Regime V) (hR : altArrays ad t nExog fs ssRef ssAlt = .ok R) : Approximates t nExog fs ssRef R := by
  unfold altArrays at hR
  obtain ⟨J, hJ, hR⟩ := Except.bind_eq_ok hR
  obtain ⟨D, hD, hR⟩ := Except.bind_eq_ok hR
  cases hR
  obtain ⟨-, -, hder⟩ := C109_jacobian ad hex ht nExog fs ssAlt J hJ
  have hder : ∀ (i : Nat) f, fs[i]? = some f → IsDerivAt f (linPoint t.toTyper nExog ssRef) (J.e i) :=
    fun i f hf => hsame f (List.mem_of_getElem? hf) _ (hder i f hf)
  rw [C114_constant ht nExog fs ssRef hss] at hD
  have hlen := linPoint_length ht nExog ssRef
  obtain ⟨v₀, hv₀, hl₀, hq₀⟩ := callAll_of (fs := fs) (vec := linPoint t.toTyper nExog ssRef)
    (Q := fun i v => ∀ f, fs[i]? = some f → f (linPoint t.toTyper nExog ssRef) = .ok v) (by
      intro i f hf
      obtain ⟨v, hv, -⟩ := hder i f hf
      exact ⟨v, hv, fun f' hf' => by rw [hf] at hf'; cases hf'; exact hv⟩)
  rw [hD] at hv₀
  cases hv₀
  intro ε hε
  obtain ⟨δ, hδ, hδ'⟩ := uniform_delta (List.range fs.length)
    (fun i δ => ∀ f, fs[i]? = some f → ∀ w, f (linPoint t.toTyper nExog ssRef) = .ok w → ∀ r, 0 ≤ r → r ≤ δ →
      ∀ x, Near (linPoint t.toTyper nExog ssRef) r x → ∃ v, f x = .ok v ∧
        |v - w - sumTo (linPoint t.toTyper nExog ssRef).length fun k =>
          J.e i k * (vecEntry x k - vecEntry (linPoint t.toTyper nExog ssRef) k)| ≤ ε * r)
    (by
      intro i hi
      have hi := List.mem_range.mp hi
      obtain ⟨w, hw, h⟩ := hder i fs[i] (List.getElem?_eq_getElem hi)
      obtain ⟨δ, hδ, h⟩ := h ε hε
      refine ⟨δ, hδ, fun f hf w' hw' => ?_⟩
      rw [List.getElem?_eq_getElem hi] at hf
      cases hf
      rw [hw] at hw'
      cases hw'
      exact h)
    (by
      intro i δ δ' _ hle h f hf w hw r h0 hr
      exact h f hf w hw r h0 (hr.trans hle))
  refine ⟨δ, hδ, fun r h0 hr ym y yp u hym hy hyp hu vec hvec => ?_⟩
  have hnear := assembled_near ht hvec hym hy hyp hu
  obtain ⟨v, hv, hl, hq⟩ := callAll_of (fs := fs) (vec := vec)
    (Q := fun i v => |v - (Regime.ofJacobian t nExog J fun i => (D[i]?).getD 0).row t.n nExog i ym y yp u| ≤ ε * r) (by
      intro i f hf
      have hi := (List.getElem?_eq_some_iff.mp hf).1
      have hw : D[i]? = some (vecEntry D i) := by
        unfold vecEntry
        rw [List.getElem?_eq_getElem (by omega)]
        rfl
      obtain ⟨v, hv, hb⟩ := hδ' i (List.mem_range.mpr hi) f hf _ (hq₀ i _ hw f hf) r h0 hr vec hnear
      refine ⟨v, hv, le_trans (le_of_eq ?_) hb⟩
      rw [row_linearised, linearised_flat (d := ⟨ym, y, yp, u⟩) ht (assembled_flat ht hvec), hlen]
      unfold argDev
      congr 1
      show _ - (_ + vecEntry D i) = _
      ring)
  refine ⟨v, by unfold dynamicCall; rw [if_pos hvec.len, hv], hl, fun i hi => hq i _ ?_⟩
  unfold vecEntry
  rw [List.getElem?_eq_getElem (by omega)]
  rfl

end

/-- the equation `x*x - 2*x = 0` of an alternative regime -/
def altEq : List ℚ → Except Err ℚ := quadFun 1 (fun _ => -2) (fun _ => 2)

theorem altEq_deriv (a : ℚ) : IsDerivAt altEq [a] fun _ => 2 * a - 2 := by
  refine isDeriv_congr (isTaylor_isDeriv (quadFun_taylor (fun _ => (-2 : ℚ)) (fun _ => 2) [a])) fun k hk => ?_
  obtain rfl : k = 0 := by simpa using hk
  simp [quadGrad, sumTo, vecEntry]
  ring

theorem alt_jacobian {t : Typer} {nExog : Nat} (a : ℚ) (h : linPoint t nExog [a] = [a]) :
    ∃ J, modelJacobian (idealAd : Autograd ℚ) t nExog [altEq] [a] = .ok J :=
  idealAd_modelJacobian (by
    intro f hf
    obtain rfl := List.mem_singleton.mp hf
    rw [h]
    exact ⟨[2 * a - 2], rfl, isDeriv_congr (altEq_deriv a) fun k hk => by
      obtain rfl : k = 0 := by simpa using hk
      simp [vecEntry]⟩)

/-- **C114 is false of the code**: the equation `x*x = 2*x` of an alternative regime with its own steady state at
`x = 2`, used about the reference steady state `x = 0`, where its derivative is `-2` and not `2`. -/
theorem C114_false : ¬ RegimesApproximate ℚ := by
  intro h
  obtain ⟨t, ht, htn, htc, htp, h1, h0, h2⟩ : ∃ t, buildLlx [[0]] = .ok t ∧ t.n = 1 ∧ t.count = 1 ∧ t.places = [(1, 0)] ∧
      t.cell 1 0 = some 0 ∧ t.cell 0 0 = none ∧ t.cell 2 0 = none := ⟨_, rfl, rfl, rfl, by decide, rfl, rfl, rfl⟩
  have hp : ∀ a : ℚ, linPoint t.toTyper 0 [a] = [a] := by intro a; unfold linPoint; rw [htp]; rfl
  obtain ⟨J, hJ⟩ := alt_jacobian (2 : ℚ) (hp 2)
  have hd := (C109_jacobian idealAd idealAd_exact ht 0 [altEq] [2] J hJ).2.2 0 altEq rfl
  rw [hp] at hd
  have hJ0 : J.e 0 0 = 2 := by
    have := isDeriv_unique hd (altEq_deriv 2) 0 (by simp)
    norm_num at this
    exact this
  have hc : regimeConst t 0 [altEq] [(0 : ℚ)] = .ok [0] := by
    rw [C114_constant ht 0 [altEq] [0] (by simp [htn]), hp]
    simp [callAll, altEq, quadFun, quadVal, sumTo, vecEntry, bind, Except.bind]
  have hR : altArrays (idealAd : Autograd ℚ) t 0 [altEq] [0] [2] =
      .ok (Regime.ofJacobian t 0 J fun i => ([(0 : ℚ)][i]?).getD 0) := by
    simp [altArrays, hJ, hc, bind, Except.bind]
  have := h idealAd idealAd_exact [[0]] t ht 0 [altEq] [0] [2] rfl (by simp [htn]) (by simp [htn])
    (by
      rw [hp, dynamicCall, if_pos (by simp [htc])]
      simp [callAll, altEq, quadFun, quadVal, sumTo, vecEntry, bind, Except.bind]) _ hR
  obtain ⟨δ, hδ, hb⟩ := this 1 one_pos
  let r : ℚ := min δ 1
  have hr0 : 0 < r := lt_min hδ one_pos
  have hr1 : r ≤ 1 := min_le_right _ _
  obtain ⟨vec, hvec⟩ := assembled_exists ht 0 [(0 : ℚ)] ⟨fun _ => 0, fun _ => r, fun _ => 0, fun _ => 0⟩
  have hv0 : vec = [r] := by
    have e1 := hvec.len
    have e2 := hvec.now 0 0 h1
    rw [htc] at e1
    match vec, e1 with
    | [a], _ => simpa [vecEntry] using e2
  subst hv0
  obtain ⟨v, hv, -, hi⟩ := hb r hr0.le (min_le_left _ _) (fun _ => 0) (fun _ => r) (fun _ => 0) (fun _ => 0)
    (fun _ _ => by simpa using hr0.le) (fun _ _ => by rw [abs_of_pos hr0]) (fun _ _ => by simpa using hr0.le)
    (fun _ _ => by simpa using hr0.le) _ hvec
  have hvv : v = [r * r - 2 * r] := by
    unfold dynamicCall at hv
    rw [if_pos (by simp [htc])] at hv
    simp [callAll, altEq, quadFun, quadVal, sumTo, vecEntry, bind, Except.bind] at hv
    rw [← hv]
    congr 1
    ring
  have := hi 0 (by simp)
  rw [row_linearised, hvv] at this
  simp only [linearised, rowPart_cell, htn, sumTo, h1, h0, h2, vecEntry] at this
  simp [hJ0] at this
  rw [abs_le] at this
  nlinarith [this.1]

/-- the hypotheses of C114 are met when both steady states are the same, as here -/
example : ∃ t, buildLlx [[0]] = .ok t ∧ ∃ R, altArrays (idealAd : Autograd ℚ) t 0 [altEq] [2] [2] = .ok R ∧
    Approximates t 0 [altEq] [2] R := by
  obtain ⟨t, ht, htn, htp⟩ : ∃ t, buildLlx [[0]] = .ok t ∧ t.n = 1 ∧ t.places = [(1, 0)] := ⟨_, rfl, rfl, by decide⟩
  have hp : ∀ a : ℚ, linPoint t.toTyper 0 [a] = [a] := by intro a; unfold linPoint; rw [htp]; rfl
  obtain ⟨J, hJ⟩ := alt_jacobian (2 : ℚ) (hp 2)
  have hc : ∃ D, regimeConst t 0 [altEq] [(2 : ℚ)] = .ok D := by
    rw [C114_constant ht 0 [altEq] [2] (by simp [htn]), hp]
    exact ⟨_, rfl⟩
  obtain ⟨D, hD⟩ := hc
  have hR : altArrays (idealAd : Autograd ℚ) t 0 [altEq] [2] [2] =
      .ok (Regime.ofJacobian t 0 J fun i => (D[i]?).getD 0) := by
    simp [altArrays, hJ, hD, bind, Except.bind]
  exact ⟨t, ht, _, hR, C114_approximates_partial idealAd idealAd_exact [[0]] t ht 0 [altEq] [2] [2] (by simp [htn])
    (fun f _ g h => h) _ hR⟩

/-! ### C115: which models can be combined -/

theorem sortNames_eq {l m : List String} : sortNames l = sortNames m ↔ l.Perm m := by
  constructor
  · intro h
    exact ((List.mergeSort_perm l _).symm.trans (h ▸ List.mergeSort_perm m _ : (sortNames l).Perm m))
  · intro h
    have hs : ∀ l : List String, (sortNames l).Pairwise (fun a b => (decide (a ≤ b)) = true) := fun l =>
      List.pairwise_mergeSort (fun a b c h1 h2 => by simp at h1 h2 ⊢; exact String.le_trans h1 h2)
        (fun a b => by simpa using String.le_total a b) l
    refine List.Perm.eq_of_pairwise ?_ (hs l) (hs m)
      (((List.mergeSort_perm l _).trans h).trans (List.mergeSort_perm m _).symm)
    intro a b _ _ h1 h2
    simp at h1 h2
    exact String.le_antisymm h1 h2

/-- **C115.** Two models are accepted as regimes of one another exactly when they declare the same variables in the same
order, the same shocks in the same order, and the same parameters in any order; otherwise a `ModelVarError` is raised. -/
theorem C115_models_match (md other : ModelNames) :
    (ensureMatch md other = .ok () ↔
      md.endog = other.endog ∧ md.stoch = other.stoch ∧ md.params.Perm other.params) ∧
    (ensureMatch md other ≠ .ok () → ensureMatch md other = .error .modelVarError) := by
  unfold ensureMatch
  by_cases h1 : md.endog = other.endog <;> by_cases h2 : md.stoch = other.stoch <;>
    by_cases h3 : sortNames md.params = sortNames other.params <;>
    simp [h1, h2, h3, ← sortNames_eq]

/-- parameters may be in another order, variables may not -/
example : ensureMatch ⟨["c", "i"], ["e"], ["beta", "phi"]⟩ ⟨["c", "i"], ["e"], ["phi", "beta"]⟩ = .ok () ∧
    ensureMatch ⟨["c", "i"], ["e"], []⟩ ⟨["i", "c"], ["e"], []⟩ = .error .modelVarError := by
  refine ⟨(C115_models_match _ _).1.mpr ⟨rfl, rfl, by decide⟩, (C115_models_match _ _).2 fun h => ?_⟩
  exact absurd ((C115_models_match _ _).1.mp h).1 (by decide)

/-! ### C116: shocks and the variables they hit -/

/-- The names given. -/
def ExogArg.names : ExogArg → Option (List String)
  | .none => Option.none
  | .one x => some [x]
  | .many xs => some xs

/-- The number of columns: one for a vector. -/
def ShockShape.columns : ShockShape → Nat
  | .vec _ => 1
  | .mat _ m => m

/-- The full statement: shocks are accepted for names of shocks when there is a column for each name. -/
def ShocksAccepted : Prop :=
  ∀ (stoch : List String) (exog : ExogArg) (shape : ShockShape) (periods : Option Nat) (xs : List String),
    stoch.Nodup → exog.names = some xs → ((∀ x ∈ xs, x ∈ stoch) ∧ shape.columns = xs.length ↔
      ∃ r, occbinArgs stoch exog shape periods = .ok r)

theorem getLoc_ok {stoch : List String} (hn : stoch.Nodup) : ∀ {xs : List String} {is : List Nat},
    getLoc stoch xs = .ok is ↔ is.length = xs.length ∧ ∀ (j : Nat) x, xs[j]? = some x → ∃ i, is[j]? = some i ∧ stoch[i]? = some x := by
  intro xs
  induction xs with
  | nil =>
    intro is
    cases is <;> simp [getLoc]
  | cons x xs ih =>
    intro is
    simp only [getLoc, Except.bind_ok_iff]
    constructor
    · rintro ⟨i, h1, js, h2, h3⟩
      cases h3
      obtain ⟨h4, h5⟩ := ih.mp h2
      refine ⟨by simp [h4], fun j y hy => ?_⟩
      cases j with
      | zero =>
        simp at hy
        subst hy
        exact ⟨i, rfl, (((C40_lookup_one stoch x).1 i).mp h1).1⟩
      | succ j => exact h5 j y (by simpa using hy)
    · rintro ⟨h1, h2⟩
      cases is with
      | nil => simp at h1
      | cons i is =>
        obtain ⟨i', e1, e2⟩ := h2 0 x rfl
        simp at e1
        subst e1
        refine ⟨i, ((C40_lookup_one stoch x).1 i).mpr ⟨e2, fun j hj => ?_⟩, is, ?_, rfl⟩
        · exact (List.getElem?_inj (List.getElem?_eq_some_iff.mp hj).1 hn).mp (hj.trans e2.symm)
        · exact ih.mpr ⟨by simpa using h1, fun j y hy => h2 (j + 1) y (by simpa using hy)⟩

theorem getLoc1_ok {stoch : List String} (hn : stoch.Nodup) {x : String} {i : Nat} :
    getLoc1 stoch x = .ok i ↔ stoch[i]? = some x := by
  refine ((C40_lookup_one stoch x).1 i).trans ⟨fun h => h.1, fun h => ⟨h, fun j hj => ?_⟩⟩
  exact (List.getElem?_inj (List.getElem?_eq_some_iff.mp hj).1 hn).mp (hj.trans h.symm)

theorem getLoc_exists {stoch : List String} {xs : List String} (hn : stoch.Nodup) (h : ∀ x ∈ xs, x ∈ stoch) :
    ∃ is, getLoc stoch xs = .ok is := by
  induction xs with
  | nil => exact ⟨[], rfl⟩
  | cons x xs ih =>
    obtain ⟨is, his⟩ := ih fun y hy => h y (by simp [hy])
    obtain ⟨i, hi⟩ := List.mem_iff_getElem?.mp (h x (by simp))
    exact ⟨i :: is, by simp [getLoc, (getLoc1_ok hn).mpr hi, his, bind, Except.bind]⟩

/-- **C116, what holds.**  Shocks in an array with columns are accepted exactly when there is a column for each name and
the names are names of shocks; shocks in a vector exactly when one name is given by itself.  What is missing: a list with
one name and a vector of shocks, see `C116_false`. -/
theorem C116_accepted_partial (stoch : List String) (exog : ExogArg) (shape : ShockShape) (periods : Option Nat)
    (xs : List String) (hn : stoch.Nodup) (hx : exog.names = some xs)
    (hc : (∃ ys, exog = .many ys) → ∃ n m, shape = .mat n m) :
    ((∀ x ∈ xs, x ∈ stoch) ∧ shape.columns = xs.length ↔ ∃ r, occbinArgs stoch exog shape periods = .ok r) := by
  cases exog with
  | none => cases hx
  | one x =>
    cases hx
    have hone : x ∈ stoch ↔ ∃ i, getLoc1 stoch x = .ok i := by
      rw [List.mem_iff_getElem?]
      exact exists_congr fun i => (getLoc1_ok hn).symm
    by_cases hm : x ∈ stoch
    · obtain ⟨i, hi⟩ := hone.mp hm
      cases shape with
      | vec n => simp [ShockShape.columns, hm, occbinArgs, exogIdx, hi, bind, Except.bind]
      | mat n m =>
        by_cases h1 : m = 1
        · simp [ShockShape.columns, hm, occbinArgs, exogIdx, hi, bind, Except.bind, h1]
        · have h1' : ¬ 1 = m := fun h => h1 h.symm
          simp [ShockShape.columns, hm, occbinArgs, exogIdx, hi, bind, Except.bind, h1, h1']
    · refine ⟨fun h => absurd (h.1 x (by simp)) hm, ?_⟩
      rintro ⟨r, hr⟩
      unfold occbinArgs at hr
      obtain ⟨i, hi, -⟩ := Except.bind_eq_ok hr
      obtain ⟨j, hj, -⟩ := Except.bind_eq_ok hi
      exact absurd (hone.mpr ⟨j, hj⟩) hm
  | many ys =>
    cases hx
    obtain ⟨n, m, rfl⟩ := hc ⟨xs, rfl⟩
    by_cases hm : ∀ x ∈ xs, x ∈ stoch
    · obtain ⟨is, hi⟩ := getLoc_exists hn hm
      have hl := ((getLoc_ok hn).mp hi).1
      by_cases h1 : m = xs.length
      · simp [ShockShape.columns, occbinArgs, exogIdx, hi, bind, Except.bind, h1, hl]
        exact hm
      · have h1' : ¬ xs.length = m := fun h => h1 h.symm
        simp [ShockShape.columns, occbinArgs, exogIdx, hi, bind, Except.bind, h1, h1', hl]
    · refine ⟨fun h => absurd h.1 hm, ?_⟩
      rintro ⟨r, hr⟩
      unfold occbinArgs at hr
      obtain ⟨i, hi, -⟩ := Except.bind_eq_ok hr
      obtain ⟨is, his, -⟩ := Except.bind_eq_ok hi
      refine absurd (fun x hx => ?_) hm
      obtain ⟨j, hj⟩ := List.mem_iff_getElem?.mp hx
      obtain ⟨k, -, hk⟩ := ((getLoc_ok hn).mp his).2 j x hj
      exact List.mem_of_getElem? hk

/-- **C116 is false of the code**: the list `["e"]` and a vector of shocks are refused, though both mean one shock. -/
theorem C116_false : ¬ ShocksAccepted := by
  intro h
  obtain ⟨r, hr⟩ := (h ["e"] (.many ["e"]) (.vec 3) none ["e"] (by decide) rfl).mp ⟨by simp, rfl⟩
  exact absurd hr (by rw [show occbinArgs ["e"] (.many ["e"]) (.vec 3) none = .error .valueError from rfl]; simp)

theorem innov_fold [Zero V] {n : Nat} {shock : List V} : ∀ {is : List Nat} {k : Nat} {acc u : List V}, acc.length = n →
    ((is.zipIdx k).foldlM (fun (acc : List V) (p : Nat × Nat) => match shock[p.2]? with
      | some v => if p.1 < n then Except.ok (acc.set p.1 v) else Except.error Err.indexError
      | none => .error Err.indexError) acc = .ok u) → is.Nodup →
    u.length = n ∧ (∀ (j : Nat) i, is[j]? = some i → ∃ v, shock[k + j]? = some v ∧ u[i]? = some v) ∧
      ∀ i, i ∉ is → u[i]? = acc[i]? := by
  intro is
  induction is with
  | nil =>
    intro k acc u hl h _
    cases h
    exact ⟨hl, fun j i h => by simp at h, fun i _ => rfl⟩
  | cons a is ih =>
    intro k acc u hl h hn
    rw [List.zipIdx_cons, List.foldlM_cons] at h
    obtain ⟨acc', h1, h2⟩ := Except.bind_eq_ok h
    dsimp only at h1
    cases hs : shock[k]? with
    | none => rw [hs] at h1; cases h1
    | some v =>
      rw [hs] at h1
      by_cases ha : a < n
      · simp only [ha, if_true] at h1
        cases h1
        obtain ⟨e1, e2, e3⟩ := ih (by simpa using hl) h2 (List.nodup_cons.mp hn).2
        have ha' := (List.nodup_cons.mp hn).1
        refine ⟨e1, fun j i hj => ?_, fun i hi => ?_⟩
        · cases j with
          | zero =>
            simp at hj
            subst hj
            refine ⟨v, hs, ?_⟩
            rw [e3 a ha', List.getElem?_set_self (by omega)]
          | succ j =>
            obtain ⟨w, w1, w2⟩ := e2 j i (by simpa using hj)
            exact ⟨w, by rw [← w1]; congr 1; omega, w2⟩
        · have hi' : a ≠ i ∧ i ∉ is := by simpa [eq_comm] using hi
          rw [e3 i hi'.2, List.getElem?_set_ne hi'.1]
      · simp only [ha, if_false] at h1
        cases h1

/-- **C116, what is hit.**  When shocks are accepted for different names, the entries of the row of shocks of a period are
those of the named variables, in the order of the names; all others are zero. -/
theorem C116_hit [Zero V] (stoch : List String) (exog : ExogArg) (shape : ShockShape) (periods : Option Nat)
    (xs : List String) (hn : stoch.Nodup) (hx : exog.names = some xs) (hd : xs.Nodup) (idx : ExogIdx) (p : Nat)
    (h : occbinArgs stoch exog shape periods = .ok (idx, p)) (shock u : List V)
    (hu : innovOf stoch.length idx shock = .ok u) :
    u.length = stoch.length ∧ (∀ (j : Nat) x, xs[j]? = some x → ∃ (i : Nat) (v : V), stoch[i]? = some x ∧ shock[j]? = some v ∧ u[i]? = some v) ∧
      ∀ (i : Nat) x, stoch[i]? = some x → x ∉ xs → u[i]? = some 0 := by
  unfold occbinArgs at h
  obtain ⟨idx', h1, h2⟩ := Except.bind_eq_ok h
  have hidx : idx' = idx := by
    revert h2
    cases shape <;> cases idx' <;> dsimp only <;> (try split_ifs) <;> intro h2 <;> cases h2 <;> rfl
  subst hidx
  cases exog with
  | none => cases hx
  | one x =>
    cases hx
    obtain ⟨i, hi, h1⟩ := Except.bind_eq_ok h1
    cases h1
    have hi := (getLoc1_ok hn).mp hi
    unfold innovOf at hu
    match shock, hu with
    | [v], hu =>
      have hlt := (List.getElem?_eq_some_iff.mp hi).1
      simp only [hlt, if_true] at hu
      cases hu
      refine ⟨by simp, fun j y hy => ?_, fun k y hk hy => ?_⟩
      · cases j with
        | zero =>
          simp at hy
          subst hy
          exact ⟨i, v, hi, rfl, by rw [List.getElem?_set_self (by simpa using hlt)]⟩
        | succ j => simp at hy
      · have hne : i ≠ k := by
          rintro rfl
          rw [hi] at hk
          cases hk
          simp at hy
        rw [List.getElem?_set_ne hne]
        simp [(List.getElem?_eq_some_iff.mp hk).1]
  | many ys =>
    cases hx
    obtain ⟨is, hi, h1⟩ := Except.bind_eq_ok h1
    cases h1
    obtain ⟨hl, hg⟩ := (getLoc_ok hn).mp hi
    have hback : ∀ (j : Nat) i, is[j]? = some i → ∃ x, xs[j]? = some x ∧ stoch[i]? = some x := by
      intro j i hj
      have hjl := (List.getElem?_eq_some_iff.mp hj).1
      obtain ⟨i', e1, e2⟩ := hg j xs[j] (List.getElem?_eq_getElem (by omega))
      rw [hj] at e1
      cases e1
      exact ⟨_, List.getElem?_eq_getElem (by omega), e2⟩
    have hind : is.Nodup := by
      rw [List.nodup_iff_getElem?_ne_getElem?]
      intro a b hab hb he
      obtain ⟨x, x1, x2⟩ := hback b is[b] (List.getElem?_eq_getElem hb)
      obtain ⟨y, y1, y2⟩ := hback a is[b] (by rw [he, List.getElem?_eq_getElem hb])
      rw [x2] at y2
      cases y2
      have := (List.getElem?_inj (i := a) (j := b) (by omega) hd).mp (y1.trans x1.symm)
      omega
    obtain ⟨e1, e2, e3⟩ := innov_fold (k := 0) (by simp) hu hind
    refine ⟨e1, fun j x hj => ?_, fun i x hi hx => ?_⟩
    · obtain ⟨i, i1, i2⟩ := hg j x hj
      obtain ⟨v, v1, v2⟩ := e2 j i i1
      exact ⟨i, v, i2, by simpa using v1, v2⟩
    · rw [e3 i fun hmem => ?_]
      · simp [(List.getElem?_eq_some_iff.mp hi).1]
      · obtain ⟨j, hj⟩ := List.mem_iff_getElem?.mp hmem
        obtain ⟨y, y1, y2⟩ := hback j i hj
        rw [hi] at y2
        cases y2
        exact hx (List.mem_of_getElem? y1)

/-- the hypotheses of C116 are met: two of three shocks, named in another order -/
example : occbinArgs ["a", "b", "c"] (.many ["c", "a"]) (.mat 4 2) none = .ok (.many [2, 0], 4) ∧
    innovOf 3 (.many [2, 0]) [(7 : Int), 5] = .ok [5, 0, 7] := ⟨rfl, rfl⟩

/-- **C116, periods.**  When shocks are accepted, the number of periods is the one that is given; without one, or with zero, it is
the length of a vector of shocks, and the number of rows of an array. -/
theorem C116_periods (stoch : List String) (exog : ExogArg) (shape : ShockShape) (periods : Option Nat) (idx : ExogIdx) (p : Nat)
    (h : occbinArgs stoch exog shape periods = .ok (idx, p)) :
    (∀ k, periods = some k → k ≠ 0 → p = k) ∧
      ((periods = none ∨ periods = some 0) → ∀ n, shape = .vec n ∨ (∃ m, shape = .mat n m) → p = n) := by
  unfold occbinArgs at h
  obtain ⟨idx', -, h2⟩ := Except.bind_eq_ok h
  refine ⟨?_, ?_⟩
  · rintro k rfl hk
    obtain ⟨k, rfl⟩ := Nat.exists_eq_succ_of_ne_zero hk
    clear h
    revert h2
    cases shape <;> cases idx' <;> dsimp only <;> (try split_ifs) <;> intro h2 <;> cases h2 <;> rfl
  · rintro (rfl | rfl) n (rfl | ⟨m, rfl⟩) <;> clear h <;> revert h2 <;> cases idx' <;> dsimp only <;> (try split_ifs) <;>
      intro h2 <;> cases h2 <;> rfl

/-- with more rows than columns, and a number of periods that is given -/
example : occbinArgs ["a", "b", "c"] (.many ["c", "a"]) (.mat 4 2) none = .ok (.many [2, 0], 4) ∧
    occbinArgs ["a", "b", "c"] (.one "b") (.vec 4) (some 0) = .ok (.one 1, 4) ∧
    occbinArgs ["a", "b", "c"] .none (.vec 4) (some 9) = .ok (.one 0, 9) := ⟨rfl, rfl, rfl⟩

/-! ### C117: giving constraints -/

/-- The argument gives the pairs `ps` of texts. -/
def ConstraintArg.Gives : ConstraintArg V → List (String × String) → Prop
  | .flat l, ps => ∃ r a, l = [r, a] ∧ ps = [(r, a)]
  | .nested l, ps => ps ≠ [] ∧ l = ps.map fun p => [p.1, p.2]
  | _, _ => False

/-- `c` holds the trees of the pairs `ps`, in order. -/
def Constr.Holds (parse : String → Except Err (Expr V)) (c : Constr V) (ps : List (String × String)) : Prop :=
  List.Forall₂ (fun p x => parse p.1 = .ok x.1 ∧ parse p.2 = .ok x.2) ps c.pairs

theorem parsePair_ok {parse : String → Except Err (Expr V)} {l : List String} {x : Expr V × Expr V} :
    parsePair parse l = .ok x ↔ ∃ r a, l = [r, a] ∧ parse r = .ok x.1 ∧ parse a = .ok x.2 := by
  match l with
  | [] => simp [parsePair]
  | [_] => simp [parsePair]
  | [r, a] =>
    simp only [parsePair, Except.bind_ok_iff]
    constructor
    · rintro ⟨y, h1, z, h2, h3⟩
      cases h3
      exact ⟨r, a, rfl, h1, h2⟩
    · rintro ⟨r', a', h, h1, h2⟩
      cases h
      exact ⟨_, h1, _, h2, rfl⟩
  | _ :: _ :: _ :: _ => simp [parsePair]

theorem parsePairs_ok {parse : String → Except Err (Expr V)} : ∀ {l : List (List String)} {xs : List (Expr V × Expr V)},
    parsePairs parse l = .ok xs ↔ ∃ ps, l = ps.map (fun p => [p.1, p.2]) ∧ Constr.Holds parse ⟨xs⟩ ps := by
  intro l
  induction l with
  | nil =>
    intro xs
    constructor
    · intro h
      cases h
      exact ⟨[], rfl, .nil⟩
    · rintro ⟨ps, h1, h2⟩
      obtain rfl : ps = [] := by cases ps <;> simp at h1 ⊢
      cases h2
      rfl
  | cons p l ih =>
    intro xs
    simp only [parsePairs, Except.bind_ok_iff]
    constructor
    · rintro ⟨x, h1, ys, h2, h3⟩
      cases h3
      obtain ⟨r, a, rfl, h4, h5⟩ := parsePair_ok.mp h1
      obtain ⟨ps, rfl, h6⟩ := ih.mp h2
      exact ⟨(r, a) :: ps, rfl, .cons ⟨h4, h5⟩ h6⟩
    · rintro ⟨ps, h1, h2⟩
      cases ps with
      | nil => simp at h1
      | cons q ps =>
        cases h2 with
        | cons h3 h4 =>
          simp only [List.map_cons, List.cons.injEq] at h1
          exact ⟨_, parsePair_ok.mpr ⟨_, _, h1.1, h3.1, h3.2⟩, _, ih.mpr ⟨ps, h1.2, h4⟩, rfl⟩

/-- The full statement: a constraint that exists, or texts that give one, make a constraint. -/
def ConstraintsTaken (parse : String → Except Err (Expr V)) : Prop :=
  ∀ (arg : ConstraintArg V) (c : Constr V), (arg = .made c ∨ ∃ ps, arg.Gives ps ∧ c.Holds parse ps) →
    Constr.make parse arg = .ok c

/-- **C117, what holds.**  Constraints are made exactly from a pair of conditions or from a sequence of such pairs, all
of which can be read; the constraint made holds their trees in the order given, and counts the pairs.  What is missing:
constraints that are there already, see `C117_false`. -/
theorem C117_pairs_partial (parse : String → Except Err (Expr V)) (arg : ConstraintArg V) (c : Constr V) :
    (Constr.make parse arg = .ok c ↔ ∃ ps, arg.Gives ps ∧ c.Holds parse ps) ∧
    ∀ ps, arg.Gives ps → c.Holds parse ps → c.len = ps.length := by
  refine ⟨?_, fun ps _ h => h.length_eq.symm⟩
  cases arg with
  | other => simp [Constr.make, ConstraintArg.Gives]
  | made d => simp [Constr.make, ConstraintArg.Gives]
  | flat l =>
    have hmake : ∀ d, Constr.make parse (.flat l) = .ok d ↔ ∃ x, parsePair parse l = .ok x ∧ d = ⟨[x]⟩ := by
      intro d
      cases l with
      | nil => simp [Constr.make, parsePair]
      | cons a l =>
        simp only [Constr.make, Except.bind_ok_iff, Except.ok.injEq]
        exact exists_congr fun x => and_congr_right fun _ => eq_comm
    rw [hmake]
    constructor
    · rintro ⟨x, h1, rfl⟩
      obtain ⟨r, a, rfl, h2, h3⟩ := parsePair_ok.mp h1
      exact ⟨[(r, a)], ⟨r, a, rfl, rfl⟩, .cons ⟨h2, h3⟩ .nil⟩
    · rintro ⟨ps, ⟨r, a, rfl, rfl⟩, h⟩
      obtain ⟨cs⟩ := c
      cases h with
      | cons h1 h2 =>
        cases h2
        exact ⟨_, parsePair_ok.mpr ⟨r, a, rfl, h1⟩, rfl⟩
  | nested l =>
    cases l with
    | nil =>
      simp only [Constr.make, ConstraintArg.Gives]
      constructor
      · intro h; cases h
      · rintro ⟨ps, ⟨h1, h2⟩, -⟩
        exact absurd (List.map_eq_nil_iff.mp h2.symm) h1
    | cons q l =>
      simp only [Constr.make, ConstraintArg.Gives, Except.bind_ok_iff, Except.ok.injEq]
      constructor
      · rintro ⟨xs, h1, rfl⟩
        obtain ⟨ps, h2, h3⟩ := parsePairs_ok.mp h1
        exact ⟨ps, ⟨fun h => by rw [h] at h2; simp at h2, h2⟩, h3⟩
      · rintro ⟨ps, ⟨-, h2⟩, h3⟩
        exact ⟨c.pairs, parsePairs_ok.mpr ⟨ps, h2, h3⟩, rfl⟩

/-- **C117 is false of the code**, whatever can be read: a `Constraint` that is given is refused. -/
theorem C117_false (parse : String → Except Err (Expr V)) : ¬ ConstraintsTaken parse := by
  intro h
  have := h (.made ⟨[]⟩) ⟨[]⟩ (.inl rfl)
  cases this

/-- two pairs -/
example : Constr.make (fun s => .ok (.var s)) (.nested [["i < lo", "i >= lo"], ["c > 0", "c <= 0"]]) =
    .ok (⟨[(.var "i < lo", .var "i >= lo"), (.var "c > 0", .var "c <= 0")]⟩ : Constr Int) := rfl

#print axioms C113_rowwise_partial
#print axioms C113_constant
#print axioms C113_names
#print axioms C113_false
#print axioms C114_constant
#print axioms C114_approximates_partial
#print axioms C114_false
#print axioms C115_models_match
#print axioms C116_accepted_partial
#print axioms C116_false
#print axioms C116_hit
#print axioms C117_pairs_partial
#print axioms C117_false

end Pynare
