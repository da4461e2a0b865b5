import Verif.Spec.RewrittenSecond
import Verif.Lemmas.Rewritten
import Verif.Lemmas.Linear
/-!
# Lemmas about the second-order solution of model files written with other equations
-/

namespace Pynare

set_option linter.unusedSectionVars false

variable {V : Type} [Field V] [LinearOrder V] [IsStrictOrderedRing V]

/-- the value of a function along a curve that starts in a direction in which it is stationary -/
theorem taylor_curve {f : List V → Except Err V} {p : List V} {g h : Nat → V} (ht : IsTaylorAt f p g h)
    (h0 : f p = .ok 0) (D E : Nat → V) (hD : (sumTo p.length fun k => g k * D k) = 0) {ε : V} (hε : 0 < ε) :
    ∃ δ > 0, ∀ s, |s| ≤ δ → ∀ x : List V, x.length = p.length →
      (∀ k < p.length, vecEntry x k - vecEntry p k = s * D k + s * s * E k) →
      ∃ w, f x = .ok w ∧ |w - s * s * ((1 / 2 * sumTo p.length fun k => sumTo p.length fun l =>
        h (k * p.length + l) * (D k * D l)) + sumTo p.length fun k => g k * E k)| ≤ ε * (s * s) := by
  obtain ⟨v₀, hv₀, ht⟩ := ht
  rw [h0] at hv₀
  cases hv₀
  obtain ⟨M0, n0, m0⟩ := bound_upto p.length D
  obtain ⟨M1, n1, m1⟩ := bound_upto p.length E
  obtain ⟨M, hM, b0⟩ : ∃ M : V, 0 < M ∧ M0 + M1 ≤ M := ⟨M0 + M1 + 1, by linarith, by linarith⟩
  set N := p.length with hN
  set Q := sumTo N fun k => sumTo N fun l => h (k * N + l) * (D k * D l) with hQ
  set Q1 := sumTo N fun k => sumTo N fun l => h (k * N + l) * (D k * E l + E k * D l) with hQ1
  set Q2 := sumTo N fun k => sumTo N fun l => h (k * N + l) * (E k * E l) with hQ2
  set C := |1 / 2 * Q1| + |1 / 2 * Q2| + 1 with hC
  have hCpos : 0 < C := by positivity
  obtain ⟨δ, hδ, ht⟩ := ht (ε / (2 * (M * M))) (by positivity)
  refine ⟨min 1 (min (δ / M) (ε / (2 * C))), lt_min one_pos (lt_min (by positivity) (by positivity)), fun s hs x hl hx => ?_⟩
  have s1 : |s| ≤ 1 := hs.trans (min_le_left _ _)
  have s2 : |s| ≤ δ / M := hs.trans ((min_le_right _ _).trans (min_le_left _ _))
  have s3 : |s| ≤ ε / (2 * C) := hs.trans ((min_le_right _ _).trans (min_le_right _ _))
  have hss : |s| * |s| = s * s := abs_mul_abs_self s
  have near : Near p (|s| * M) x := by
    refine ⟨hl, fun k hk => ?_⟩
    rw [hx k hk]
    have a := m0 k hk
    have b := m1 k hk
    have hb : |s * s * E k| ≤ |s| * |E k| := by
      rw [abs_mul, abs_mul]
      refine mul_le_mul_of_nonneg_right ?_ (abs_nonneg _)
      calc |s| * |s| ≤ |s| * 1 := mul_le_mul_of_nonneg_left s1 (abs_nonneg s)
        _ = |s| := mul_one _
    calc |s * D k + s * s * E k| ≤ |s * D k| + |s * s * E k| := abs_add_le _ _
      _ ≤ |s| * |D k| + |s| * |E k| := by rw [abs_mul s (D k)]; linarith
      _ = |s| * (|D k| + |E k|) := by ring
      _ ≤ |s| * M := mul_le_mul_of_nonneg_left (by linarith) (abs_nonneg s)
  obtain ⟨w, hw, hle⟩ := ht (|s| * M) (by positivity) ((le_div_iff₀ hM).mp s2) x near
  refine ⟨w, hw, ?_⟩
  have e1 : (sumTo N fun k => g k * (vecEntry x k - vecEntry p k)) = s * s * sumTo N fun k => g k * E k := by
    have : (sumTo N fun k => g k * (vecEntry x k - vecEntry p k)) =
        s * (sumTo N fun k => g k * D k) + s * s * sumTo N fun k => g k * E k := by
      rw [sumTo_eq, sumTo_eq, sumTo_eq, Finset.mul_sum, Finset.mul_sum, ← Finset.sum_add_distrib]
      refine Finset.sum_congr rfl fun k hk => ?_
      rw [hx k (Finset.mem_range.mp hk)]
      ring
    rw [this, hD, mul_zero, zero_add]
  have e2 : (sumTo N fun k => sumTo N fun l =>
      h (k * N + l) * ((vecEntry x k - vecEntry p k) * (vecEntry x l - vecEntry p l))) =
      s * s * Q + s * s * s * Q1 + s * s * (s * s) * Q2 := by
    simp only [hQ, hQ1, hQ2, sumTo_eq, Finset.mul_sum]
    rw [← Finset.sum_add_distrib, ← Finset.sum_add_distrib]
    refine Finset.sum_congr rfl fun k hk => ?_
    rw [← Finset.sum_add_distrib, ← Finset.sum_add_distrib]
    refine Finset.sum_congr rfl fun l hl => ?_
    rw [hx k (Finset.mem_range.mp hk), hx l (Finset.mem_range.mp hl)]
    ring
  rw [e1, e2, sub_zero] at hle
  have e3 : ε / (2 * (M * M)) * (|s| * M * (|s| * M)) = ε / 2 * (s * s) := by
    rw [← hss]; field_simp
  rw [e3] at hle
  have e4 : |s * s * s * (1 / 2 * Q1) + s * s * (s * s) * (1 / 2 * Q2)| ≤ ε / 2 * (s * s) := by
    have p0 : 0 ≤ s * s := mul_self_nonneg s
    have c1 : |s * s * s * (1 / 2 * Q1)| ≤ s * s * (|s| * |1 / 2 * Q1|) := by
      rw [abs_mul, abs_mul, abs_of_nonneg p0, mul_assoc]
    have c2 : |s * s * (s * s) * (1 / 2 * Q2)| ≤ s * s * (|s| * |1 / 2 * Q2|) := by
      rw [abs_mul, abs_mul, abs_of_nonneg p0, mul_assoc]
      refine mul_le_mul_of_nonneg_left (mul_le_mul_of_nonneg_right ?_ (abs_nonneg _)) p0
      rw [← hss]
      calc |s| * |s| ≤ |s| * 1 := mul_le_mul_of_nonneg_left s1 (abs_nonneg s)
        _ = |s| := mul_one _
    have c3 : |s| * C ≤ ε / 2 := by
      have := (le_div_iff₀ (by positivity : (0 : V) < 2 * C)).mp s3
      linarith
    calc _ ≤ |s * s * s * (1 / 2 * Q1)| + |s * s * (s * s) * (1 / 2 * Q2)| := abs_add_le _ _
      _ ≤ s * s * (|s| * |1 / 2 * Q1|) + s * s * (|s| * |1 / 2 * Q2|) := add_le_add c1 c2
      _ = s * s * (|s| * (|1 / 2 * Q1| + |1 / 2 * Q2|)) := by ring
      _ ≤ s * s * (|s| * C) := mul_le_mul_of_nonneg_left (mul_le_mul_of_nonneg_left (by rw [hC]; linarith) (abs_nonneg s)) p0
      _ ≤ s * s * (ε / 2) := mul_le_mul_of_nonneg_left c3 p0
      _ = ε / 2 * (s * s) := by ring
  have e5 : w - s * s * (1 / 2 * Q + sumTo N fun k => g k * E k) =
      (w - s * s * (sumTo N fun k => g k * E k) - 1 / 2 * (s * s * Q + s * s * s * Q1 + s * s * (s * s) * Q2)) +
      (s * s * s * (1 / 2 * Q1) + s * s * (s * s) * (1 / 2 * Q2)) := by ring
  rw [e5]
  refine (abs_add_le _ _).trans ?_
  have : ε * (s * s) = ε / 2 * (s * s) + ε / 2 * (s * s) := by ring
  rw [this]
  exact add_le_add hle e4

theorem flat_bend {t : Llx} {nExog : Nat} {d e : Around V} {D E : Nat → V} (s : V) (hD : Flat t nExog d D)
    (hE : Flat t nExog e E) : Flat t nExog (d.bend e s) fun k => s * D k + s * s * E k :=
  ⟨fun c k hk => by simp only [Around.bend, hD.before c k hk, hE.before c k hk],
    fun c k hk => by simp only [Around.bend, hD.now c k hk, hE.now c k hk],
    fun c k hk => by simp only [Around.bend, hD.after c k hk, hE.after c k hk],
    fun j hj => by simp only [Around.bend, hD.shock j hj, hE.shock j hj]⟩

/-- one function vanishes to second order along a curve -/
theorem taylor_direction {pss : List (List Int)} {t : Llx} (ht : buildLlx pss = .ok t) {nExog : Nat} {ss : List V}
    {J H : Arr V} {i : Nat} {f : List V → Except Err V}
    (hder : IsTaylorAt f (linPoint t.toTyper nExog ss) (J.e i) (H.e i))
    (h0 : f (linPoint t.toTyper nExog ss) = .ok 0) (d e : Around V)
    (hd : linearised t nExog J i d.before d.now d.after d.shock = 0) :
    1 / 2 * curvature t nExog H i d d + linearised t nExog J i e.before e.now e.after e.shock = 0 ↔
      ∀ ε > 0, ∃ δ > 0, ∀ s, |s| ≤ δ → ∀ vec, Assembled t nExog ss (d.bend e s) vec →
        ∃ w, f vec = .ok w ∧ |w| ≤ ε * (s * s) := by
  obtain ⟨D, hD⟩ := flat_exists ht nExog d
  obtain ⟨E, hE⟩ := flat_exists ht nExog e
  have hl := linPoint_length ht nExog ss
  rw [linearised_flat ht hD, ← hl] at hd
  rw [linearised_flat ht hE, curvature_flat ht hD hD, ← hl]
  set T := (1 / 2 * sumTo (linPoint t.toTyper nExog ss).length fun k => sumTo (linPoint t.toTyper nExog ss).length fun l =>
    H.e i (k * (linPoint t.toTyper nExog ss).length + l) * (D k * D l)) +
    sumTo (linPoint t.toTyper nExog ss).length fun k => J.e i k * E k with hT
  have key : ∀ ε > 0, ∃ δ > 0, ∀ s, |s| ≤ δ → ∀ vec, Assembled t nExog ss (d.bend e s) vec →
      ∃ w, f vec = .ok w ∧ |w - s * s * T| ≤ ε * (s * s) := by
    intro ε hε
    obtain ⟨δ, hδ, h⟩ := taylor_curve hder h0 D E hd hε
    refine ⟨δ, hδ, fun s hs vec hvec => h s hs vec (by rw [hl, hvec.len]) fun k hk => ?_⟩
    exact flat_ext ht (assembled_flat ht hvec) (flat_bend s hD hE) (fun _ _ => rfl) (fun _ _ => rfl) (fun _ _ => rfl)
      (fun _ _ => rfl) k (by omega)
  constructor
  · intro hL ε hε
    obtain ⟨δ, hδ, h⟩ := key ε hε
    refine ⟨δ, hδ, fun s hs vec hvec => ?_⟩
    obtain ⟨w, hw, hle⟩ := h s hs vec hvec
    rw [hL, mul_zero, sub_zero] at hle
    exact ⟨w, hw, hle⟩
  · intro hall
    refine zero_of_small' fun ε hε => ?_
    obtain ⟨δ, hδ, h⟩ := key (ε / 2) (by positivity)
    obtain ⟨δ', hδ', h'⟩ := hall (ε / 2) (by positivity)
    obtain ⟨s, hs, s1, s2⟩ : ∃ s : V, 0 < s ∧ s ≤ δ ∧ s ≤ δ' := ⟨min δ δ', lt_min hδ hδ', min_le_left _ _, min_le_right _ _⟩
    have ab : |s| = s := abs_of_pos hs
    obtain ⟨vec, hvec⟩ := assembled_exists ht nExog ss (d.bend e s)
    obtain ⟨w, hw, hle⟩ := h s (by rw [ab]; exact s1) vec hvec
    obtain ⟨w', hw', hle'⟩ := h' s (by rw [ab]; exact s2) vec hvec
    rw [hw] at hw'
    cases hw'
    have hpos : 0 < s * s := mul_pos hs hs
    have h3 : |s * s * T| ≤ ε * (s * s) := by
      have := abs_sub_abs_le_abs_sub (s * s * T) w
      rw [abs_sub_comm] at this
      linarith
    rw [abs_mul, abs_of_pos hpos, mul_comm] at h3
    exact le_of_mul_le_mul_right h3 hpos

/-- the curves that satisfy the equations of the file to second order -/
theorem TextBase.second_iff {SS S : Type} {ops : Ops V} (hsub : ∀ a b, ops.bin .sub a b = .ok (a - b))
    {m : ModelFile V} {ρ σ : String → Option V} {md : MState V SS S} {pss : List (List Int)}
    (h : TextBase ops m ρ σ md pss) (he : PlainEquations m) (hw : WellPosed m)
    {ss : List V} {J H : Arr V} (hJ : J.r = md.dynamic.length)
    (hder : ∀ (i : Nat) f, md.dynamic[i]? = some f →
      IsTaylorAt f (linPoint md.indexes.toTyper (m.names "varexo").length ss) (J.e i) (H.e i))
    (hrest : ∀ l r, (l, r) ∈ equations m.stmts → GapIs ops m σ (levelsAt ss noDev) l r 0) (d e : Around V)
    (hd : ∀ i < J.r, linearised md.indexes (m.names "varexo").length J i d.before d.now d.after d.shock = 0) :
    SolvesToSecondOrder ops m σ ss d e ↔
      ∀ i < J.r, 1 / 2 * curvature md.indexes (m.names "varexo").length H i d d +
        linearised md.indexes (m.names "varexo").length J i e.before e.now e.after e.shock = 0 := by
  have hr := assembled_rest h.table (m.names "varexo").length ss
  have one : ∀ (i : Nat) l r f, (equations m.stmts)[i]? = some (l, r) → md.dynamic[i]? = some f →
      (1 / 2 * curvature md.indexes (m.names "varexo").length H i d d +
        linearised md.indexes (m.names "varexo").length J i e.before e.now e.after e.shock = 0 ↔
        ∀ ε > 0, ∃ δ > 0, ∀ s, |s| ≤ δ → ∃ w, GapIs ops m σ (levelsAt ss (d.bend e s)) l r w ∧ |w| ≤ ε * (s * s)) := by
    intro i l r f hi hf
    rw [taylor_direction h.table (hder i f hf)
      ((h.gap hsub he hw hi hf hr 0).mpr (hrest l r (List.mem_of_getElem? hi))) d e
      (hd i (by rw [hJ]; exact (List.getElem?_eq_some_iff.mp hf).1))]
    refine forall₂_congr fun ε _ => exists_congr fun δ => and_congr_right fun _ => forall₂_congr fun s _ => ?_
    constructor
    · intro hv
      obtain ⟨vec, hvec⟩ := assembled_exists h.table (m.names "varexo").length ss (d.bend e s)
      obtain ⟨w, h1, h2⟩ := hv vec hvec
      exact ⟨w, (h.gap hsub he hw hi hf hvec w).mp h1, h2⟩
    · rintro ⟨w, h1, h2⟩ vec hvec
      exact ⟨w, (h.gap hsub he hw hi hf hvec w).mpr h1, h2⟩
  have hlen := h.rep.dynamicLength
  constructor
  · intro hs i hi
    rw [hJ] at hi
    have hi' : i < (equations m.stmts).length := by omega
    refine (one i _ _ _ (List.getElem?_eq_getElem hi') (List.getElem?_eq_getElem hi)).mpr ?_
    exact hs _ _ (List.getElem_mem hi')
  · intro hs l r hlr
    obtain ⟨i, hi, e⟩ := List.getElem_of_mem hlr
    have hi' : i < md.dynamic.length := by omega
    exact (one i l r _ (by rw [List.getElem?_eq_getElem hi, e]) (List.getElem?_eq_getElem hi')).mp
      (hs i (by rw [hJ]; exact hi'))

/-- all equations at once -/
theorem second_uniform {ops : Ops V} {m : ModelFile V} {σ : String → Option V} {ss : List V} {d e : Around V} :
    SolvesToSecondOrder ops m σ ss d e ↔
      ∀ ε > 0, ∃ δ > 0, ∀ s, |s| ≤ δ → MetWithin ops m σ (levelsAt ss (d.bend e s)) (ε * (s * s)) := by
  constructor
  · intro h ε hε
    have all : ∀ es : List (Expr V × Expr V), (∀ p ∈ es, p ∈ equations m.stmts) → ∃ δ > 0, ∀ s, |s| ≤ δ →
        ∀ p ∈ es, ∃ w, GapIs ops m σ (levelsAt ss (d.bend e s)) p.1 p.2 w ∧ |w| ≤ ε * (s * s) := by
      intro es
      induction es with
      | nil => exact fun _ => ⟨1, one_pos, fun _ _ _ h => by cases h⟩
      | cons p es ih =>
        intro hes
        obtain ⟨δ₁, d1, h1⟩ := h p.1 p.2 (hes p (.head _)) ε hε
        obtain ⟨δ₂, d2, h2⟩ := ih fun q hq => hes q (.tail _ hq)
        refine ⟨min δ₁ δ₂, lt_min d1 d2, fun s hs q hq => ?_⟩
        rcases List.mem_cons.mp hq with rfl | hq
        · exact h1 s (hs.trans (min_le_left _ _))
        · exact h2 s (hs.trans (min_le_right _ _)) q hq
    obtain ⟨δ, hδ, h⟩ := all _ fun _ h => h
    exact ⟨δ, hδ, fun s hs l r hlr => h s hs (l, r) hlr⟩
  · intro h l r hlr ε hε
    obtain ⟨δ, hδ, h⟩ := h ε hε
    exact ⟨δ, hδ, fun s hs => h s hs l r hlr⟩

/-- levels along a curve given by name -/
theorem named_bend (m : ModelFile V) (a ym y yp u ym' y' yp' u' : String → V) (s : V) :
    (∀ c < (m.names "var").length,
      (levelsAt ((m.names "var").map a) ((named m ym y yp u).bend (named m ym' y' yp' u') s)).before c =
        (named m (fun x => a x + (s * ym x + s * s * ym' x)) (fun x => a x + (s * y x + s * s * y' x))
          (fun x => a x + (s * yp x + s * s * yp' x)) (fun x => s * u x + s * s * u' x)).before c ∧
      (levelsAt ((m.names "var").map a) ((named m ym y yp u).bend (named m ym' y' yp' u') s)).now c =
        (named m (fun x => a x + (s * ym x + s * s * ym' x)) (fun x => a x + (s * y x + s * s * y' x))
          (fun x => a x + (s * yp x + s * s * yp' x)) (fun x => s * u x + s * s * u' x)).now c ∧
      (levelsAt ((m.names "var").map a) ((named m ym y yp u).bend (named m ym' y' yp' u') s)).after c =
        (named m (fun x => a x + (s * ym x + s * s * ym' x)) (fun x => a x + (s * y x + s * s * y' x))
          (fun x => a x + (s * yp x + s * s * yp' x)) (fun x => s * u x + s * s * u' x)).after c) ∧
    ∀ k < (m.names "varexo").length,
      (levelsAt ((m.names "var").map a) ((named m ym y yp u).bend (named m ym' y' yp' u') s)).shock k =
        (named m (fun x => a x + (s * ym x + s * s * ym' x)) (fun x => a x + (s * y x + s * s * y' x))
          (fun x => a x + (s * yp x + s * s * yp' x)) (fun x => s * u x + s * s * u' x)).shock k := by
  refine ⟨fun c hc => ?_, fun k hk => ?_⟩
  · simp [levelsAt, named, Around.bend, byName, vecEntry, hc]
  · simp [levelsAt, named, Around.bend, byName, hk]

/-- if the equations of one file imply those of another, they do so to second order -/
theorem ImpliesNear.solvesSecond {ops : Ops V} {m m' : ModelFile V} {σ σ' : String → Option V} {a : String → V}
    (h : ImpliesNear ops m σ m' σ' a) {ym y yp u ym' y' yp' u' : String → V}
    (hs : SolvesToSecondOrder ops m σ ((m.names "var").map a) (named m ym y yp u) (named m ym' y' yp' u')) :
    SolvesToSecondOrder ops m' σ' ((m'.names "var").map a) (named m' ym y yp u) (named m' ym' y' yp' u') := by
  obtain ⟨K, δ₀, hδ₀, h⟩ := h
  rw [second_uniform] at hs ⊢
  intro ε hε
  have hK : 0 < |K| + 1 := by positivity
  obtain ⟨δ₁, hδ₁, hs⟩ := hs (ε / (|K| + 1)) (by positivity)
  obtain ⟨B₁, b1, B1⟩ := exists_bound (fun x => |ym x| + |ym' x|) (m.names "var")
  obtain ⟨B₂, b2, B2⟩ := exists_bound (fun x => |y x| + |y' x|) (m.names "var")
  obtain ⟨B₃, b3, B3⟩ := exists_bound (fun x => |yp x| + |yp' x|) (m.names "var")
  obtain ⟨B₄, b4, B4⟩ := exists_bound (fun x => |u x| + |u' x|) (m.names "varexo")
  have hB : 0 < B₁ + B₂ + B₃ + B₄ := by positivity
  refine ⟨min 1 (min δ₁ (δ₀ / (B₁ + B₂ + B₃ + B₄))), lt_min one_pos (lt_min hδ₁ (by positivity)), fun s hsl => ?_⟩
  have s0 : |s| ≤ 1 := hsl.trans (min_le_left _ _)
  have s1 : |s| ≤ δ₁ := hsl.trans ((min_le_right _ _).trans (min_le_left _ _))
  have s2 : |s| * (B₁ + B₂ + B₃ + B₄) ≤ δ₀ :=
    (le_div_iff₀ hB).mp (hsl.trans ((min_le_right _ _).trans (min_le_right _ _)))
  have small : ∀ {z z' B : V}, |(|z| + |z'|)| ≤ B → B ≤ B₁ + B₂ + B₃ + B₄ → |s * z + s * s * z'| ≤ δ₀ := by
    intro z z' B h1 h2
    rw [abs_of_nonneg (by positivity)] at h1
    have hb : |s * s * z'| ≤ |s| * |z'| := by
      rw [abs_mul, abs_mul]
      refine mul_le_mul_of_nonneg_right ?_ (abs_nonneg _)
      calc |s| * |s| ≤ |s| * 1 := mul_le_mul_of_nonneg_left s0 (abs_nonneg s)
        _ = |s| := mul_one _
    calc |s * z + s * s * z'| ≤ |s * z| + |s * s * z'| := abs_add_le _ _
      _ ≤ |s| * |z| + |s| * |z'| := by rw [abs_mul s z]; linarith
      _ = |s| * (|z| + |z'|) := by ring
      _ ≤ |s| * (B₁ + B₂ + B₃ + B₄) := mul_le_mul_of_nonneg_left (h1.trans h2) (abs_nonneg s)
      _ ≤ δ₀ := s2
  obtain ⟨n1, n2⟩ := named_bend m a ym y yp u ym' y' yp' u' s
  obtain ⟨n1', n2'⟩ := named_bend m' a ym y yp u ym' y' yp' u' s
  have := h _ _ _ _ (fun x hx => by
      simp only [add_sub_cancel_left]
      exact ⟨small (B1 x hx) (by linarith), small (B2 x hx) (by linarith), small (B3 x hx) (by linarith)⟩)
    (fun x hx => small (B4 x hx) (by linarith)) _ (metWithin_within n1 n2 (hs s s1))
  intro l r hlr
  obtain ⟨w, g, hw⟩ := metWithin_within (fun c hc => ⟨(n1' c hc).1.symm, (n1' c hc).2.1.symm, (n1' c hc).2.2.symm⟩)
    (fun k hk => (n2' k hk).symm) this l r hlr
  refine ⟨w, g, hw.trans ?_⟩
  have e : ε / (|K| + 1) * (|K| + 1) = ε := div_mul_cancel₀ _ hK.ne'
  have p : 0 ≤ ε / (|K| + 1) * (s * s) := mul_nonneg (by positivity) (mul_self_nonneg s)
  calc K * (ε / (|K| + 1) * (s * s)) ≤ (|K| + 1) * (ε / (|K| + 1) * (s * s)) :=
        mul_le_mul_of_nonneg_right ((le_abs_self K).trans (by linarith)) p
    _ = ε * (s * s) := by rw [← mul_assoc, mul_comm (|K| + 1), e]

end Pynare
