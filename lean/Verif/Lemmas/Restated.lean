import Verif.Spec.Restated
import Verif.Lemmas.Rewritten
/-!
# Lemmas about model files written in other variables
-/

namespace Pynare

set_option linter.unusedSectionVars false

variable {V : Type} [Field V] [LinearOrder V] [IsStrictOrderedRing V]

/-- the difference of two deviations -/
def Around.minus (d e : Around V) : Around V :=
  ⟨fun c => d.before c - e.before c, fun c => d.now c - e.now c, fun c => d.after c - e.after c, fun k => d.shock k - e.shock k⟩

/-- all deviations of the variables and shocks are at most `B` -/
structure Around.Within (n nExog : Nat) (d : Around V) (B : V) : Prop where
  before : ∀ c < n, |d.before c| ≤ B
  now : ∀ c < n, |d.now c| ≤ B
  after : ∀ c < n, |d.after c| ≤ B
  shock : ∀ k < nExog, |d.shock k| ≤ B

theorem linearised_minus {pss : List (List Int)} {t : Llx} (h : buildLlx pss = .ok t) (nExog : Nat) (J : Arr V) (i : Nat)
    (d e : Around V) :
    linearised t nExog J i (d.minus e).before (d.minus e).now (d.minus e).after (d.minus e).shock =
      linearised t nExog J i d.before d.now d.after d.shock - linearised t nExog J i e.before e.now e.after e.shock := by
  obtain ⟨D, hD⟩ := flat_exists h nExog d
  obtain ⟨E, hE⟩ := flat_exists h nExog e
  have hs : Flat t nExog (d.minus e) fun k => D k - E k :=
    ⟨fun c k hk => by simp only [Around.minus, hD.before c k hk, hE.before c k hk],
      fun c k hk => by simp only [Around.minus, hD.now c k hk, hE.now c k hk],
      fun c k hk => by simp only [Around.minus, hD.after c k hk, hE.after c k hk],
      fun j hj => by simp only [Around.minus, hD.shock j hj, hE.shock j hj]⟩
  rw [linearised_flat h hD, linearised_flat h hE, linearised_flat h hs, sumTo_eq, sumTo_eq, sumTo_eq, ← Finset.sum_sub_distrib]
  exact Finset.sum_congr rfl fun k _ => by ring

theorem linearised_le {pss : List (List Int)} {t : Llx} (h : buildLlx pss = .ok t) (nExog : Nat) (J : Arr V) (i : Nat) :
    ∃ C ≥ 0, ∀ (d : Around V) (B : V), d.Within t.n nExog B → |linearised t nExog J i d.before d.now d.after d.shock| ≤ C * B := by
  refine ⟨∑ k ∈ Finset.range (t.count + nExog), |J.e i k|, Finset.sum_nonneg fun _ _ => abs_nonneg _, fun d B hB => ?_⟩
  obtain ⟨D, hD⟩ := flat_exists h nExog d
  rw [linearised_flat h hD, sumTo_eq, Finset.sum_mul]
  refine (Finset.abs_sum_le_sum_abs _ _).trans (Finset.sum_le_sum fun k hk => ?_)
  rw [abs_mul]
  exact mul_le_mul_of_nonneg_left (flat_le h hD hB.before hB.now hB.after hB.shock k (Finset.mem_range.mp hk)) (abs_nonneg _)

/-- a function that is small along a curve is small to first order in its direction -/
theorem deriv_curve {pss : List (List Int)} {t : Llx} (ht : buildLlx pss = .ok t) {nExog : Nat} {ss : List V}
    {J : Arr V} {i : Nat} {f : List V → Except Err V} (hder : IsDerivAt f (linPoint t.toTyper nExog ss) (J.e i))
    (h0 : f (linPoint t.toTyper nExog ss) = .ok 0) (d : Around V)
    (hc : ∀ ε > 0, ∃ δ > 0, ∀ s, |s| ≤ δ → ∃ D : Around V, (D.minus (d.scale s)).Within t.n nExog (ε * |s|) ∧
      ∀ vec, Assembled t nExog ss D vec → ∃ w, f vec = .ok w ∧ |w| ≤ ε * |s|) :
    linearised t nExog J i d.before d.now d.after d.shock = 0 := by
  obtain ⟨v₀, hv₀, hd⟩ := hder
  rw [h0] at hv₀
  cases hv₀
  obtain ⟨M0, p0, m0⟩ := bound_upto t.n d.before
  obtain ⟨M1, p1, m1⟩ := bound_upto t.n d.now
  obtain ⟨M2, p2, m2⟩ := bound_upto t.n d.after
  obtain ⟨M3, p3, m3⟩ := bound_upto nExog d.shock
  obtain ⟨M, hM, hb⟩ : ∃ M : V, 0 < M ∧ M0 ≤ M ∧ M1 ≤ M ∧ M2 ≤ M ∧ M3 ≤ M :=
    ⟨M0 + M1 + M2 + M3 + 1, by linarith, by linarith, by linarith, by linarith, by linarith⟩
  obtain ⟨b0, b1, b2, b3⟩ := hb
  obtain ⟨C, hC, hle⟩ := linearised_le ht nExog J i
  refine zero_of_small' fun ε hε => ?_
  obtain ⟨δ, hδ, h⟩ := hd (ε / (2 * (M + 1))) (by positivity)
  obtain ⟨ε', hε', e1, e2⟩ : ∃ e : V, 0 < e ∧ e ≤ 1 ∧ (1 + C) * e ≤ ε / 2 := by
    refine ⟨min 1 (ε / (2 * (1 + C))), lt_min one_pos (by positivity), min_le_left _ _, ?_⟩
    calc (1 + C) * min 1 (ε / (2 * (1 + C))) ≤ (1 + C) * (ε / (2 * (1 + C))) :=
          mul_le_mul_of_nonneg_left (min_le_right _ _) (by positivity)
      _ = ε / 2 := by field_simp
  obtain ⟨δ', hδ', h'⟩ := hc ε' hε'
  obtain ⟨s, hs, s1, s2⟩ : ∃ s : V, 0 < s ∧ s ≤ δ' ∧ s * (M + 1) ≤ δ :=
    ⟨min δ' (δ / (M + 1)), lt_min hδ' (by positivity), min_le_left _ _,
      (le_div_iff₀ (by positivity)).mp (min_le_right _ _)⟩
  have ab : |s| = s := abs_of_pos hs
  obtain ⟨D, hD, hw⟩ := h' s (by rw [ab]; exact s1)
  rw [ab] at hD hw
  have sz : ∀ {x y B : V}, |x - s * y| ≤ ε' * s → |y| ≤ B → B ≤ M → |x| ≤ s * (M + 1) := by
    intro x y B h1 h2 h3
    have h4 : |s * y| ≤ s * M := by rw [abs_mul, ab]; exact mul_le_mul_of_nonneg_left (h2.trans h3) hs.le
    have h5 : ε' * s ≤ 1 * s := mul_le_mul_of_nonneg_right e1 hs.le
    have h6 := abs_sub_abs_le_abs_sub x (s * y)
    linarith
  obtain ⟨vec, hvec⟩ := assembled_exists ht nExog ss D
  obtain ⟨w, hw1, hw2⟩ := hw vec hvec
  have near := assembled_near ht hvec (B := s * (M + 1)) (fun c hc => sz (hD.before c hc) (m0 c hc) b0)
    (fun c hc => sz (hD.now c hc) (m1 c hc) b1) (fun c hc => sz (hD.after c hc) (m2 c hc) b2)
    (fun k hk => sz (hD.shock k hk) (m3 k hk) b3)
  obtain ⟨w', hw', hl⟩ := h (s * (M + 1)) (by positivity) s2 vec near
  rw [hw1] at hw'
  cases hw'
  have f1 := linearised_flat ht (assembled_flat ht hvec) J i
  rw [linPoint_length ht] at hl
  simp only [argDev] at f1
  rw [← f1, sub_zero] at hl
  have f2 := hle _ _ hD
  rw [linearised_minus ht, linearised_scaled ht nExog J i s d] at f2
  have g1 : ε / (2 * (M + 1)) * (s * (M + 1)) = ε / 2 * s := by field_simp
  rw [g1] at hl
  generalize linearised t nExog J i d.before d.now d.after d.shock = L at f2 ⊢
  generalize linearised t nExog J i D.before D.now D.after D.shock = N at f2 hl
  have h3 : |s * L| ≤ ε * s := by
    have k1 := abs_sub_abs_le_abs_sub (s * L) N
    rw [abs_sub_comm] at k1
    have k2 := abs_sub_abs_le_abs_sub N w
    rw [abs_sub_comm] at k2
    have k3 : (1 + C) * ε' * s ≤ ε / 2 * s := mul_le_mul_of_nonneg_right e2 hs.le
    have k4 : (1 + C) * ε' * s = ε' * s + C * (ε' * s) := by ring
    linarith
  rw [abs_mul, ab, mul_comm] at h3
  exact le_of_mul_le_mul_right h3 hs

theorem slopes_uniform (ns : List String) {T : String → V → V} {a k : String → V} (h : ∀ x ∈ ns, HasSlope (T x) (a x) (k x))
    (d : String → V) {ε : V} (hε : 0 < ε) :
    ∃ δ > 0, ∀ s, |s| ≤ δ → ∀ x ∈ ns, |T x (a x + s * d x) - T x (a x) - s * (k x * d x)| ≤ ε * |s| := by
  induction ns with
  | nil => exact ⟨1, one_pos, fun _ _ _ h => by cases h⟩
  | cons n ns ih =>
    obtain ⟨δ₁, h1, ih⟩ := ih fun x hx => h x (.tail _ hx)
    obtain ⟨δ₂, h2, hn⟩ := h n (.head _) (ε / (|d n| + 1)) (by positivity)
    refine ⟨min δ₁ (δ₂ / (|d n| + 1)), lt_min h1 (by positivity), fun s hs x hx => ?_⟩
    rcases List.mem_cons.mp hx with rfl | hx
    · have s2 : |s| * (|d x| + 1) ≤ δ₂ := (le_div_iff₀ (by positivity)).mp (hs.trans (min_le_right _ _))
      have ha : |s * d x| ≤ |s| * (|d x| + 1) := by
        rw [abs_mul]
        exact mul_le_mul_of_nonneg_left (by linarith) (abs_nonneg s)
      have := hn (s * d x) (ha.trans s2)
      calc _ = |T x (a x + s * d x) - T x (a x) - k x * (s * d x)| := by congr 1; ring
        _ ≤ ε / (|d x| + 1) * |s * d x| := this
        _ ≤ ε / (|d x| + 1) * (|s| * (|d x| + 1)) := mul_le_mul_of_nonneg_left ha (by positivity)
        _ = ε * |s| := by field_simp
    · exact ih s (hs.trans (min_le_left _ _)) x hx

/-- if the equations of one file imply those of another in other variables, they do so to first order -/
theorem RestatedNear.solves {SS S : Type} {ops : Ops V} (hsub : ∀ a b, ops.bin .sub a b = .ok (a - b))
    {m m' : ModelFile V} {σ σ' ρ' : String → Option V} {md' : MState V SS S} {pss : List (List Int)}
    (tb : TextBase ops m' ρ' σ' md' pss) (he : PlainEquations m') (hw : WellPosed m') {ad : Autograd V} (had : ad.Exact)
    {a k j : String → V} {T U : String → V → V} (h : RestatedNear ops m σ m' σ' a T U)
    (hT : ∀ x ∈ m'.names "var", HasSlope (T x) (a x) (k x))
    (hU : ∀ x ∈ m'.names "varexo", U x 0 = 0 ∧ HasSlope (U x) 0 (j x)) {J : Arr V}
    (hJ : modelJacobian ad md'.indexes.toTyper (m'.names "varexo").length md'.dynamic
      ((m'.names "var").map fun x => T x (a x)) = .ok J)
    (hrest : ∀ l r, (l, r) ∈ equations m'.stmts →
      GapIs ops m' σ' (levelsAt ((m'.names "var").map fun x => T x (a x)) noDev) l r 0)
    {ym y yp u : String → V} (hs : SolvesToFirstOrder ops m σ ((m.names "var").map a) (named m ym y yp u)) :
    ∀ i < J.r, linearised md'.indexes (m'.names "varexo").length J i (byName (m'.names "var") fun x => k x * ym x)
      (byName (m'.names "var") fun x => k x * y x) (byName (m'.names "var") fun x => k x * yp x)
      (byName (m'.names "varexo") fun x => j x * u x) = 0 := by
  obtain ⟨K, δ₀, hδ₀, h⟩ := h
  rw [solves_uniform] at hs
  obtain ⟨j1, j2, j3⟩ := C109_jacobian ad had tb.table _ _ _ _ hJ
  have hr := assembled_rest tb.table (m'.names "varexo").length ((m'.names "var").map fun x => T x (a x))
  have hlen := tb.rep.dynamicLength
  have hn : md'.indexes.n = (m'.names "var").length := (buildLlx_spec tb.table).1.trans tb.len
  intro i hi
  rw [j1] at hi
  have hi' : i < (equations m'.stmts).length := by omega
  have hlr := List.getElem_mem hi'
  refine deriv_curve tb.table (j3 i _ (List.getElem?_eq_getElem hi))
    ((tb.gap hsub he hw (List.getElem?_eq_getElem hi') (List.getElem?_eq_getElem hi) hr 0).mpr (hrest _ _ hlr))
    (named m' (fun x => k x * ym x) (fun x => k x * y x) (fun x => k x * yp x) (fun x => j x * u x)) fun ε hε => ?_
  have hK : 0 < |K| + 1 := by positivity
  obtain ⟨δ₁, hδ₁, hs⟩ := hs (ε / (|K| + 1)) (by positivity)
  obtain ⟨B₁, b1, B1⟩ := exists_bound ym (m.names "var")
  obtain ⟨B₂, b2, B2⟩ := exists_bound y (m.names "var")
  obtain ⟨B₃, b3, B3⟩ := exists_bound yp (m.names "var")
  obtain ⟨B₄, b4, B4⟩ := exists_bound u (m.names "varexo")
  have hB : 0 < B₁ + B₂ + B₃ + B₄ := by positivity
  obtain ⟨η₁, n1, N1⟩ := slopes_uniform _ hT ym hε
  obtain ⟨η₂, n2, N2⟩ := slopes_uniform _ hT y hε
  obtain ⟨η₃, n3, N3⟩ := slopes_uniform _ hT yp hε
  obtain ⟨η₄, n4, N4⟩ := slopes_uniform (a := fun _ => 0) _ (fun x hx => (hU x hx).2) u hε
  refine ⟨min δ₁ (min (δ₀ / (B₁ + B₂ + B₃ + B₄)) (min (min η₁ η₂) (min η₃ η₄))),
    lt_min hδ₁ (lt_min (by positivity) (lt_min (lt_min n1 n2) (lt_min n3 n4))), fun s hsl => ?_⟩
  simp only [le_min_iff] at hsl
  obtain ⟨s1, s2, ⟨t1, t2⟩, t3, t4⟩ := hsl
  rw [le_div_iff₀ hB] at s2
  have small : ∀ {z B : V}, |z| ≤ B → B ≤ B₁ + B₂ + B₃ + B₄ → |s * z| ≤ δ₀ := by
    intro z B h1 h2
    rw [abs_mul]
    exact (mul_le_mul_of_nonneg_left (h1.trans h2) (abs_nonneg s)).trans s2
  obtain ⟨l1, l2⟩ := named_levels m a ym y yp u s
  have met := h _ _ _ _ (fun x hx => by
      simp only [add_sub_cancel_left]
      exact ⟨small (B1 x hx) (by linarith), small (B2 x hx) (by linarith), small (B3 x hx) (by linarith)⟩)
    (fun x hx => small (B4 x hx) (by linarith)) _ (metWithin_within l1 l2 (hs s s1))
  refine ⟨named m' (fun x => T x (a x + s * ym x) - T x (a x)) (fun x => T x (a x + s * y x) - T x (a x))
    (fun x => T x (a x + s * yp x) - T x (a x)) (fun x => U x (s * u x)), ⟨?_, ?_, ?_, ?_⟩, fun vec hvec => ?_⟩
  · intro c hc
    have hc' : c < (m'.names "var").length := by omega
    simp only [Around.minus, Around.scale, named, byName_get (List.getElem?_eq_getElem hc')]
    exact N1 s t1 _ (List.getElem_mem hc')
  · intro c hc
    have hc' : c < (m'.names "var").length := by omega
    simp only [Around.minus, Around.scale, named, byName_get (List.getElem?_eq_getElem hc')]
    exact N2 s t2 _ (List.getElem_mem hc')
  · intro c hc
    have hc' : c < (m'.names "var").length := by omega
    simp only [Around.minus, Around.scale, named, byName_get (List.getElem?_eq_getElem hc')]
    exact N3 s t3 _ (List.getElem_mem hc')
  · intro c hc
    simp only [Around.minus, Around.scale, named, byName_get (List.getElem?_eq_getElem hc)]
    have := N4 s t4 _ (List.getElem_mem hc)
    rw [(hU _ (List.getElem_mem hc)).1, zero_add, sub_zero] at this
    exact this
  · have met := metWithin_within (L' := levelsAt ((m'.names "var").map fun x => T x (a x))
        (named m' (fun x => T x (a x + s * ym x) - T x (a x)) (fun x => T x (a x + s * y x) - T x (a x))
          (fun x => T x (a x + s * yp x) - T x (a x)) (fun x => U x (s * u x))))
        (fun c hc => by simp [levelsAt, named, byName, vecEntry, hc]) (fun c hc => by simp [levelsAt, named, byName]) met
    obtain ⟨w, g, hw'⟩ := met _ _ hlr
    refine ⟨w, (tb.gap hsub he hw (List.getElem?_eq_getElem hi') (List.getElem?_eq_getElem hi) hvec w).mpr g, hw'.trans ?_⟩
    have e : ε / (|K| + 1) * (|K| + 1) = ε := div_mul_cancel₀ _ hK.ne'
    have p : 0 ≤ ε / (|K| + 1) * |s| := by positivity
    calc K * (ε / (|K| + 1) * |s|) ≤ (|K| + 1) * (ε / (|K| + 1) * |s|) :=
          mul_le_mul_of_nonneg_right ((le_abs_self K).trans (by linarith)) p
      _ = ε * |s| := by rw [← mul_assoc, mul_comm (|K| + 1), e]

/-- If the equations of one model, met by some path, imply those of another, met by the path in other order and units,
then so do the policy functions. -/
theorem policy_implies_scaled {φ : V →+* ℂ} {la la' : LinAlg V} (ex : la.Exact) (ex' : la'.Exact)
    {pss pss' : List (List Int)} {t t' : Llx} {m m' : Nat} {J gy gu J' gy' gu' : Arr V} {s s' : Space V}
    {q q' : QZ V} {ev ev' : Nat → Option ℂ} (h : Determinate φ la pss t m J gy gu s q ev)
    (h' : Determinate φ la' pss' t' m' J' gy' gu' s' q' ev') (π ρ : Nat → Nat) (κ μ : Nat → V)
    (hπ : ∀ c < pss'.length, π c < pss.length)
    (heq : ∀ ym y yp u : Nat → V, (∀ i < J.r, linearised t m J i ym y yp u = 0) →
      ∀ i < J'.r, linearised t' m' J' i (fun c => κ c * ym (π c)) (fun c => κ c * y (π c)) (fun c => κ c * yp (π c))
        (fun k => μ k * u (ρ k)) = 0)
    {ym u y : Nat → V} (hy : FollowsPolicy t.toTyper m gy gu ym u y) :
    FollowsPolicy t'.toTyper m' gy' gu' (fun c => κ c * ym (π c)) (fun k => μ k * u (ρ k)) (fun c => κ c * y (π c)) := by
  obtain ⟨hd, -⟩ := h.det ex
  obtain ⟨-, g2, -⟩ := solution_rows ex hd.cur hd.static hd.square hd.space (hd.separated ex) hd.solved
  have hp := (groups hd.cur).perm
  let z : Nat → Nat → V := devFirst t.toTyper gy (fun _ _ => 0) y
  let Y : Nat → Nat → V := fun τ => match τ with
    | 0 => ym
    | τ + 1 => z τ
  let U : Nat → Nat → V := fun τ => if τ = 0 then u else 0
  have hU : ∀ τ, 0 < τ → U τ = 0 := fun τ h0 => by simp [U, show τ ≠ 0 by omega]
  have hf : ∀ τ, FollowsPolicy t.toTyper m gy gu (Y τ) (U τ) (Y (τ + 1)) := by
    intro τ
    cases τ with
    | zero => exact hy
    | succ τ =>
      rw [hU (τ + 1) (by omega)]
      refine stepFirst_follows hp ?_ fun i _ => ?_
      · rw [g2]; exact (drState_length hp).1.symm
      · rw [sumTo_eq]; simp
  obtain ⟨e1, B, e2⟩ := (C145_unique_partial φ la ex pss t m J gy gu s q ev h Y U
    (fun τ h0 k _ => by rw [hU τ h0]; rfl)).mp hf
  have := (C145_unique_partial φ la' ex' pss' t' m' J' gy' gu' s' q' ev' h' (fun τ c => κ c * Y τ (π c))
    (fun τ k => μ k * U τ (ρ k)) (fun τ h0 k _ => by rw [hU τ h0]; simp)).mpr
    ⟨fun τ i hi => heq _ _ _ _ (e1 τ) i hi, (∑ c ∈ Finset.range pss'.length, ‖φ (κ c)‖) * |B|, fun τ c hc => ?_⟩ 0
  · exact this
  · rw [map_mul, norm_mul]
    exact mul_le_mul (Finset.single_le_sum (f := fun c => ‖φ (κ c)‖) (fun _ _ => norm_nonneg _) (Finset.mem_range.mpr hc))
      ((e2 τ _ (hπ c hc)).trans (le_abs_self B)) (norm_nonneg _) (Finset.sum_nonneg fun _ _ => norm_nonneg _)

theorem pEvals_unique {V : Type} {ops : Ops V} {P : String → V → Prop} {Q : String → Int → V → Prop}
    (hP : ∀ x v v', P x v → P x v' → v = v') (hQ : ∀ x o v v', Q x o v → Q x o v' → v = v') {e : Expr V} :
    ∀ {v v' : V}, PEvals ops P Q e v → PEvals ops P Q e v' → v = v' := by
  induction e with
  | num w =>
    intro v v' h h'
    cases h
    cases h'
    rfl
  | var x =>
    intro v v' h h'
    cases h with
    | var h => cases h' with
      | var h' => exact hP _ _ _ h h'
  | pvar x o =>
    intro v v' h h'
    cases h with
    | pvar h => cases h' with
      | pvar h' => exact hQ _ _ _ _ h h'
  | un op e ih =>
    intro v v' h h'
    cases h with
    | un h1 h2 => cases h' with
      | un g1 g2 =>
        obtain rfl := ih h1 g1
        exact Except.ok.inj (h2.symm.trans g2)
  | bin op l r ihl ihr =>
    intro v v' h h'
    cases h with
    | bin h1 h2 h3 => cases h' with
      | bin g1 g2 g3 =>
        obtain rfl := ihl h1 g1
        obtain rfl := ihr h2 g2
        exact Except.ok.inj (h3.symm.trans g3)
  | cmp op l r ihl ihr =>
    intro v v' h h'
    cases h with
    | cmp h1 h2 h3 => cases h' with
      | cmp g1 g2 g3 =>
        obtain rfl := ihl h1 g1
        obtain rfl := ihr h2 g2
        exact Except.ok.inj (h3.symm.trans g3)
  | fn f e ih =>
    intro v v' h h'
    cases h with
    | fn hA h1 h2 => cases h' with
      | fn hB g1 g2 =>
        obtain rfl := ih h1 g1
        obtain rfl := (applies_inv hA).2.trans (applies_inv hB).2.symm
        exact Except.ok.inj (h2.symm.trans g2)

theorem nameAt_unique {V : Type} [Zero V] {xs es : List String} {ym y yp u : String → V} (x : String) (o : Int) (v v' : V)
    (h : NameAt xs ⟨byName xs ym, byName xs y, byName xs yp, byName es u⟩ x o v)
    (h' : NameAt xs ⟨byName xs ym, byName xs y, byName xs yp, byName es u⟩ x o v') : v = v' := by
  cases h with
  | before hc => cases h' with
    | before hc' => exact (byName_get hc).trans (byName_get hc').symm
  | after hc => cases h' with
    | after hc' => exact (byName_get hc).trans (byName_get hc').symm

theorem nameNow_unique {V : Type} [Zero V] {σ : String → Option V} {xs es : List String} {ym y yp u : String → V}
    (hd : ∀ x ∈ xs, x ∉ es ∧ σ x = none) (x : String) (v v' : V)
    (h : NameNow σ xs es ⟨byName xs ym, byName xs y, byName xs yp, byName es u⟩ x v)
    (h' : NameNow σ xs es ⟨byName xs ym, byName xs y, byName xs yp, byName es u⟩ x v') : v = v' := by
  cases h with
  | param hs => cases h' with
    | param hs' => exact Option.some.inj (hs.symm.trans hs')
    | endog hs' => rw [hs] at hs'; cases hs'
    | shock hs' => rw [hs] at hs'; cases hs'
  | endog hs hc => cases h' with
    | param hs' => rw [hs] at hs'; cases hs'
    | endog _ hc' => exact (byName_get hc).trans (byName_get hc').symm
    | shock _ hc' => exact absurd (List.mem_of_getElem? hc') (hd x (List.mem_of_getElem? hc)).1
  | shock hs hc => cases h' with
    | param hs' => rw [hs] at hs'; cases hs'
    | shock _ hc' => exact (byName_get hc).trans (byName_get hc').symm
    | endog _ hc' => exact absurd (List.mem_of_getElem? hc) (hd x (List.mem_of_getElem? hc')).1

end Pynare
