import Verif.Spec.Combined
import Verif.Lemmas.RewrittenSecond
import Verif.Lemmas.OrderSecond
/-!
# Lemmas about model files whose equations are combinations of those of others
-/

namespace Pynare

set_option linter.unusedSectionVars false

variable {V : Type} [Field V] [LinearOrder V] [IsStrictOrderedRing V]

/-- a quadratic function that is small compared with the square of its argument is zero -/
theorem coeffs_zero {A B : V} (h : ∀ ε > 0, ∃ δ > 0, ∀ s, |s| ≤ δ → |s * A + s * s * B| ≤ ε * (s * s)) : A = 0 ∧ B = 0 := by
  have hA : A = 0 := by
    by_contra hA
    obtain ⟨δ, hδ, h⟩ := h 1 one_pos
    have hp : 0 < |A| := abs_pos.mpr hA
    obtain ⟨s, hs, s1, s2⟩ : ∃ s : V, 0 < s ∧ s ≤ δ ∧ s * (2 * (1 + |B|)) ≤ |A| :=
      ⟨min δ (|A| / (2 * (1 + |B|))), lt_min hδ (by positivity), min_le_left _ _,
        (le_div_iff₀ (by positivity)).mp (min_le_right _ _)⟩
    have := h s (by rw [abs_of_pos hs]; exact s1)
    have h1 : |s * A| ≤ |s * A + s * s * B| + |s * s * B| := by
      have := abs_sub (s * A + s * s * B) (s * s * B)
      rwa [add_sub_cancel_right] at this
    have h2 : |s * s * B| = s * s * |B| := by rw [abs_mul, abs_of_pos (mul_pos hs hs)]
    rw [abs_mul s A, abs_of_pos hs] at h1
    have h3 : s * |A| ≤ s * (s * (1 + |B|)) := by rw [h2] at h1; nlinarith
    have h4 := le_of_mul_le_mul_left h3 hs
    linarith
  refine ⟨hA, zero_of_small' fun ε hε => ?_⟩
  obtain ⟨δ, hδ, h⟩ := h ε hε
  have := h δ (by rw [abs_of_pos hδ])
  rw [hA, mul_zero, zero_add, abs_mul, abs_of_pos (mul_pos hδ hδ), mul_comm] at this
  exact le_of_mul_le_mul_right this (mul_pos hδ hδ)

/-- the value of a function along a ray -/
theorem taylor_ray {f : List V → Except Err V} {p : List V} {g h : Nat → V} (ht : IsTaylorAt f p g h)
    (h0 : f p = .ok 0) (D : Nat → V) {ε : V} (hε : 0 < ε) :
    ∃ δ > 0, ∀ s, |s| ≤ δ → ∀ x : List V, x.length = p.length →
      (∀ k < p.length, vecEntry x k - vecEntry p k = s * D k) →
      ∃ w, f x = .ok w ∧ |w - s * (sumTo p.length fun k => g k * D k) - s * s * (1 / 2 * sumTo p.length fun k =>
        sumTo p.length fun l => h (k * p.length + l) * (D k * D l))| ≤ ε * (s * s) := by
  obtain ⟨v₀, hv₀, ht⟩ := ht
  rw [h0] at hv₀
  cases hv₀
  obtain ⟨M0, n0, m0⟩ := bound_upto p.length D
  obtain ⟨M, hM, b0⟩ : ∃ M : V, 0 < M ∧ M0 ≤ M := ⟨M0 + 1, by linarith, by linarith⟩
  obtain ⟨δ, hδ, ht⟩ := ht (ε / (M * M)) (by positivity)
  refine ⟨δ / M, by positivity, fun s hs x hl hx => ?_⟩
  obtain ⟨w, hw, hle⟩ := ht (|s| * M) (by positivity) ((le_div_iff₀ hM).mp hs) x ⟨hl, fun k hk => by
    rw [hx k hk, abs_mul]
    exact mul_le_mul_of_nonneg_left ((m0 k hk).trans b0) (abs_nonneg s)⟩
  refine ⟨w, hw, ?_⟩
  have e1 : (sumTo p.length fun k => g k * (vecEntry x k - vecEntry p k)) = s * sumTo p.length fun k => g k * D k := by
    rw [sumTo_eq, sumTo_eq, Finset.mul_sum]
    refine Finset.sum_congr rfl fun k hk => ?_
    rw [hx k (Finset.mem_range.mp hk)]
    ring
  have e2 : (sumTo p.length fun k => sumTo p.length fun l =>
      h (k * p.length + l) * ((vecEntry x k - vecEntry p k) * (vecEntry x l - vecEntry p l))) =
      s * s * sumTo p.length fun k => sumTo p.length fun l => h (k * p.length + l) * (D k * D l) := by
    simp only [sumTo_eq, Finset.mul_sum]
    refine Finset.sum_congr rfl fun k hk => Finset.sum_congr rfl fun l hl => ?_
    rw [hx k (Finset.mem_range.mp hk), hx l (Finset.mem_range.mp hl)]
    ring
  rw [e1, e2, sub_zero] at hle
  have e3 : ε / (M * M) * (|s| * M * (|s| * M)) = ε * (s * s) := by
    rw [← abs_mul_abs_self s]; field_simp
  rw [e3] at hle
  refine le_trans (le_of_eq ?_) hle
  congr 1
  ring

theorem flat_scale {t : Llx} {nExog : Nat} {d : Around V} {D : Nat → V} (s : V) (hD : Flat t nExog d D) :
    Flat t nExog (d.scale s) fun k => s * D k :=
  ⟨fun c k hk => by simp only [Around.scale, hD.before c k hk], fun c k hk => by simp only [Around.scale, hD.now c k hk],
    fun c k hk => by simp only [Around.scale, hD.after c k hk], fun j hj => by simp only [Around.scale, hD.shock j hj]⟩

/-- the gap of an equation along a ray -/
theorem TextBase.ray {SS S : Type} {ops : Ops V} (hsub : ∀ a b, ops.bin .sub a b = .ok (a - b))
    {m : ModelFile V} {ρ σ : String → Option V} {md : MState V SS S} {pss : List (List Int)}
    (h : TextBase ops m ρ σ md pss) (he : PlainEquations m) (hw : WellPosed m)
    {ss : List V} {J H : Arr V}
    (hder : ∀ (i : Nat) f, md.dynamic[i]? = some f →
      IsTaylorAt f (linPoint md.indexes.toTyper (m.names "varexo").length ss) (J.e i) (H.e i))
    (hrest : ∀ l r, (l, r) ∈ equations m.stmts → GapIs ops m σ (levelsAt ss noDev) l r 0) (d : Around V) {i : Nat}
    {l r : Expr V} (hi : (equations m.stmts)[i]? = some (l, r)) {ε : V} (hε : 0 < ε) :
    ∃ δ > 0, ∀ s, |s| ≤ δ → ∃ w, GapIs ops m σ (levelsAt ss (d.scale s)) l r w ∧
      |w - s * linearised md.indexes (m.names "varexo").length J i d.before d.now d.after d.shock -
        s * s * (1 / 2 * curvature md.indexes (m.names "varexo").length H i d d)| ≤ ε * (s * s) := by
  have ht := h.table
  have hr := assembled_rest ht (m.names "varexo").length ss
  have hlen := h.rep.dynamicLength
  have hf : md.dynamic[i]? = some (md.dynamic[i]'(by rw [hlen]; exact (List.getElem?_eq_some_iff.mp hi).1)) :=
    List.getElem?_eq_getElem _
  obtain ⟨D, hD⟩ := flat_exists ht (m.names "varexo").length d
  have hl := linPoint_length ht (m.names "varexo").length ss
  obtain ⟨δ, hδ, key⟩ := taylor_ray (hder i _ hf)
    ((h.gap hsub he hw hi hf hr 0).mpr (hrest l r (List.mem_of_getElem? hi))) D hε
  refine ⟨δ, hδ, fun s hs => ?_⟩
  obtain ⟨vec, hvec⟩ := assembled_exists ht (m.names "varexo").length ss (d.scale s)
  obtain ⟨w, hw', hle⟩ := key s hs vec (by rw [hl, hvec.len]) fun k hk =>
    flat_ext ht (assembled_flat ht hvec) (flat_scale s hD) (fun _ _ => rfl) (fun _ _ => rfl) (fun _ _ => rfl)
      (fun _ _ => rfl) k (by omega)
  refine ⟨w, (h.gap hsub he hw hi hf hvec w).mp hw', ?_⟩
  rw [linearised_flat ht hD, curvature_flat ht hD hD, ← hl]
  exact hle

/-- the gap of an equation is unique -/
theorem TextBase.gap_unique {SS S : Type} {ops : Ops V} (hsub : ∀ a b, ops.bin .sub a b = .ok (a - b))
    {m : ModelFile V} {ρ σ : String → Option V} {md : MState V SS S} {pss : List (List Int)}
    (h : TextBase ops m ρ σ md pss) (he : PlainEquations m) (hw : WellPosed m) {ss : List V} {d : Around V}
    {l r : Expr V} (hlr : (l, r) ∈ equations m.stmts) {w w' : V} (h1 : GapIs ops m σ (levelsAt ss d) l r w)
    (h2 : GapIs ops m σ (levelsAt ss d) l r w') : w = w' := by
  obtain ⟨i, hi⟩ := List.getElem?_of_mem hlr
  have hlen := h.rep.dynamicLength
  have hf : md.dynamic[i]? = some (md.dynamic[i]'(by rw [hlen]; exact (List.getElem?_eq_some_iff.mp hi).1)) :=
    List.getElem?_eq_getElem _
  obtain ⟨vec, hvec⟩ := assembled_exists h.table (m.names "varexo").length ss d
  have a := (h.gap hsub he hw hi hf hvec w).mpr h1
  have b := (h.gap hsub he hw hi hf hvec w').mpr h2
  rw [a] at b
  exact Except.ok.inj b

theorem gap_within {ops : Ops V} {m : ModelFile V} {σ : String → Option V} {L L' : Around V}
    (h : ∀ c < (m.names "var").length, L.before c = L'.before c ∧ L.now c = L'.now c ∧ L.after c = L'.after c)
    (hs : ∀ k < (m.names "varexo").length, L.shock k = L'.shock k) {l r : Expr V} {w : V} (hg : GapIs ops m σ L l r w) :
    GapIs ops m σ L' l r w := by
  obtain ⟨a, b, ha, hb, e⟩ := hg
  exact ⟨a, b, side_within h hs ha, side_within h hs hb, e⟩

/-- all of finitely many bounds at once -/
theorem all_delta {P : Nat → V → Prop} (hP : ∀ i δ δ', P i δ → δ' ≤ δ → P i δ') :
    ∀ n : Nat, (∀ i < n, ∃ δ > 0, P i δ) → ∃ δ > 0, ∀ i < n, P i δ := by
  intro n
  induction n with
  | zero => exact fun _ => ⟨1, one_pos, fun i hi => absurd hi (Nat.not_lt_zero i)⟩
  | succ n ih =>
    intro h
    obtain ⟨δ, hδ, h1⟩ := ih fun i hi => h i (by omega)
    obtain ⟨δ', hδ', h2⟩ := h n (by omega)
    refine ⟨min δ δ', lt_min hδ hδ', fun i hi => ?_⟩
    rcases Nat.lt_succ_iff_lt_or_eq.mp hi with hi | rfl
    · exact hP _ _ _ (h1 i hi) (min_le_left _ _)
    · exact hP _ _ _ h2 (min_le_right _ _)

/-- derivatives of equations that are combinations of others -/
theorem CombinesNear.rows {SS S SS' S' : Type} {ops : Ops V} (hsub : ∀ a b, ops.bin .sub a b = .ok (a - b))
    {m m' : ModelFile V} {ρ σ ρ' σ' : String → Option V} {md : MState V SS S} {md' : MState V SS' S'}
    {pss pss' : List (List Int)} (h : TextBase ops m ρ σ md pss) (h' : TextBase ops m' ρ' σ' md' pss')
    (he : PlainEquations m) (he' : PlainEquations m') (hw : WellPosed m) (hw' : WellPosed m') {a : String → V}
    {J H J' H' : Arr V}
    (hder : ∀ (i : Nat) f, md.dynamic[i]? = some f →
      IsTaylorAt f (linPoint md.indexes.toTyper (m.names "varexo").length ((m.names "var").map a)) (J.e i) (H.e i))
    (hder' : ∀ (i : Nat) f, md'.dynamic[i]? = some f →
      IsTaylorAt f (linPoint md'.indexes.toTyper (m'.names "varexo").length ((m'.names "var").map a)) (J'.e i) (H'.e i))
    (hrest : ∀ l r, (l, r) ∈ equations m.stmts → GapIs ops m σ (levelsAt ((m.names "var").map a) noDev) l r 0)
    (hrest' : ∀ l r, (l, r) ∈ equations m'.stmts → GapIs ops m' σ' (levelsAt ((m'.names "var").map a) noDev) l r 0)
    (hc : CombinesNear ops m σ m' σ' a) {i' : Nat} {l' r' : Expr V} (hi' : (equations m'.stmts)[i']? = some (l', r')) :
    ∃ c : Nat → V, ∀ ym y yp u : String → V,
      linearised md'.indexes (m'.names "varexo").length J' i' (byName (m'.names "var") ym) (byName (m'.names "var") y)
        (byName (m'.names "var") yp) (byName (m'.names "varexo") u) =
        (sumTo (equations m.stmts).length fun i => c i * linearised md.indexes (m.names "varexo").length J i
          (byName (m.names "var") ym) (byName (m.names "var") y) (byName (m.names "var") yp) (byName (m.names "varexo") u)) ∧
      curvature md'.indexes (m'.names "varexo").length H' i' (named m' ym y yp u) (named m' ym y yp u) =
        sumTo (equations m.stmts).length fun i => c i * curvature md.indexes (m.names "varexo").length H i
          (named m ym y yp u) (named m ym y yp u) := by
  obtain ⟨c, δ₀, hδ₀, hc⟩ := hc l' r' (List.mem_of_getElem? hi')
  refine ⟨c, fun ym y yp u => ?_⟩
  set N := (equations m.stmts).length with hN
  set L := fun i => linearised md.indexes (m.names "varexo").length J i
          (byName (m.names "var") ym) (byName (m.names "var") y) (byName (m.names "var") yp) (byName (m.names "varexo") u)
  set C := fun i => curvature md.indexes (m.names "varexo").length H i (named m ym y yp u) (named m ym y yp u)
  set L' := linearised md'.indexes (m'.names "varexo").length J' i' (byName (m'.names "var") ym) (byName (m'.names "var") y)
        (byName (m'.names "var") yp) (byName (m'.names "varexo") u)
  set C' := curvature md'.indexes (m'.names "varexo").length H' i' (named m' ym y yp u) (named m' ym y yp u)
  suffices hz : L' - (sumTo N fun i => c i * L i) = 0 ∧ 1 / 2 * C' - (sumTo N fun i => c i * (1 / 2 * C i)) = 0 by
    refine ⟨sub_eq_zero.mp hz.1, ?_⟩
    have e : (sumTo N fun i => c i * (1 / 2 * C i)) = 1 / 2 * sumTo N fun i => c i * C i := by
      rw [sumTo_eq, sumTo_eq, Finset.mul_sum]
      exact Finset.sum_congr rfl fun i _ => by ring
    rw [e] at hz
    have := hz.2
    linarith
  refine coeffs_zero fun ε hε => ?_
  obtain ⟨B₁, b1, B1⟩ := exists_bound ym (m.names "var")
  obtain ⟨B₂, b2, B2⟩ := exists_bound y (m.names "var")
  obtain ⟨B₃, b3, B3⟩ := exists_bound yp (m.names "var")
  obtain ⟨B₄, b4, B4⟩ := exists_bound u (m.names "varexo")
  have hB : 0 < B₁ + B₂ + B₃ + B₄ := by positivity
  set K := (∑ i ∈ Finset.range N, |c i|) + 1 with hK
  have hKp : 0 < K := by positivity
  have hε' : 0 < ε / 2 / K := by positivity
  obtain ⟨δ₁, hδ₁, h1⟩ := all_delta (P := fun i δ => ∀ l r, (equations m.stmts)[i]? = some (l, r) → ∀ s, |s| ≤ δ →
      ∃ w, GapIs ops m σ (levelsAt ((m.names "var").map a) ((named m ym y yp u).scale s)) l r w ∧
        |w - s * L i - s * s * (1 / 2 * C i)| ≤ ε / 2 / K * (s * s))
    (fun i δ δ' h hd l r hlr s hs => h l r hlr s (hs.trans hd)) N (by
      intro i hi
      obtain ⟨⟨l₀, r₀⟩, hp⟩ : ∃ p, (equations m.stmts)[i]? = some p := ⟨_, List.getElem?_eq_getElem hi⟩
      obtain ⟨δ, hδ, hk⟩ := h.ray hsub he hw hder hrest (named m ym y yp u) hp hε'
      refine ⟨δ, hδ, fun l r hlr s hs => ?_⟩
      rw [hp] at hlr
      cases hlr
      exact hk s hs)
  obtain ⟨δ₂, hδ₂, h2⟩ := h'.ray hsub he' hw' hder' hrest' (named m' ym y yp u) hi' (half_pos hε)
  refine ⟨min (min δ₁ δ₂) (δ₀ / (B₁ + B₂ + B₃ + B₄)), lt_min (lt_min hδ₁ hδ₂) (by positivity), fun s hs => ?_⟩
  have s1 : |s| ≤ δ₁ := hs.trans ((min_le_left _ _).trans (min_le_left _ _))
  have s2 : |s| ≤ δ₂ := hs.trans ((min_le_left _ _).trans (min_le_right _ _))
  have s3 : |s| * (B₁ + B₂ + B₃ + B₄) ≤ δ₀ := (le_div_iff₀ hB).mp (hs.trans (min_le_right _ _))
  have small : ∀ {z B : V}, |z| ≤ B → B ≤ B₁ + B₂ + B₃ + B₄ → |s * z| ≤ δ₀ := by
    intro z B h1 h2
    rw [abs_mul]
    exact (mul_le_mul_of_nonneg_left (h1.trans h2) (abs_nonneg s)).trans s3
  have hex : ∀ i : Nat, ∃ w, ∀ l r, (equations m.stmts)[i]? = some (l, r) →
      GapIs ops m σ (levelsAt ((m.names "var").map a) ((named m ym y yp u).scale s)) l r w ∧
        |w - s * L i - s * s * (1 / 2 * C i)| ≤ ε / 2 / K * (s * s) := by
    intro i
    by_cases hi : i < N
    · obtain ⟨⟨l₀, r₀⟩, hp⟩ : ∃ p, (equations m.stmts)[i]? = some p := ⟨_, List.getElem?_eq_getElem hi⟩
      obtain ⟨w, hw⟩ := h1 i hi _ _ hp s s1
      refine ⟨w, fun l r hlr => ?_⟩
      rw [hp] at hlr
      cases hlr
      exact hw
    · exact ⟨0, fun l r hlr => absurd (List.getElem?_eq_some_iff.mp hlr).1 hi⟩
  choose w hw using hex
  obtain ⟨n1, n2⟩ := named_levels m a ym y yp u s
  obtain ⟨n1', n2'⟩ := named_levels m' a ym y yp u s
  have hg := hc _ _ _ _ (fun x hx => by
      simp only [add_sub_cancel_left]
      exact ⟨small (B1 x hx) (by linarith), small (B2 x hx) (by linarith), small (B3 x hx) (by linarith)⟩)
    (fun x hx => small (B4 x hx) (by linarith)) w fun i l r hlr => gap_within n1 n2 (hw i l r hlr).1
  have hg := gap_within (fun c hc => ⟨(n1' c hc).1.symm, (n1' c hc).2.1.symm, (n1' c hc).2.2.symm⟩)
    (fun k hk => (n2' k hk).symm) hg
  obtain ⟨w', hg', hle'⟩ := h2 s s2
  obtain rfl := h'.gap_unique hsub he' hw' (List.mem_of_getElem? hi') hg hg'
  have key : |(sumTo N fun i => c i * w i) - s * (sumTo N fun i => c i * L i) -
      s * s * sumTo N fun i => c i * (1 / 2 * C i)| ≤ ε / 2 * (s * s) := by
    have e : (sumTo N fun i => c i * w i) - s * (sumTo N fun i => c i * L i) -
        s * s * (sumTo N fun i => c i * (1 / 2 * C i)) =
        ∑ i ∈ Finset.range N, c i * (w i - s * L i - s * s * (1 / 2 * C i)) := by
      rw [sumTo_eq, sumTo_eq, sumTo_eq, Finset.mul_sum, Finset.mul_sum, ← Finset.sum_sub_distrib, ← Finset.sum_sub_distrib]
      exact Finset.sum_congr rfl fun i _ => by ring
    rw [e]
    have hq : 0 ≤ ε / 2 / K * (s * s) := mul_nonneg hε'.le (mul_self_nonneg s)
    calc _ ≤ ∑ i ∈ Finset.range N, |c i * (w i - s * L i - s * s * (1 / 2 * C i))| := Finset.abs_sum_le_sum_abs _ _
      _ ≤ ∑ i ∈ Finset.range N, |c i| * (ε / 2 / K * (s * s)) := by
        refine Finset.sum_le_sum fun i hi => ?_
        rw [abs_mul]
        exact mul_le_mul_of_nonneg_left (hw i _ _ (List.getElem?_eq_getElem (Finset.mem_range.mp hi))).2 (abs_nonneg _)
      _ = (∑ i ∈ Finset.range N, |c i|) * (ε / 2 / K * (s * s)) := by rw [Finset.sum_mul]
      _ ≤ K * (ε / 2 / K * (s * s)) := mul_le_mul_of_nonneg_right (by rw [hK]; linarith) hq
      _ = ε / 2 * (s * s) := by field_simp
  have fin : s * (L' - sumTo N fun i => c i * L i) + s * s * (1 / 2 * C' - sumTo N fun i => c i * (1 / 2 * C i)) =
      ((sumTo N fun i => c i * w i) - s * (sumTo N fun i => c i * L i) - s * s * sumTo N fun i => c i * (1 / 2 * C i)) -
      ((sumTo N fun i => c i * w i) - s * L' - s * s * (1 / 2 * C')) := by ring
  rw [fin]
  refine (abs_sub _ _).trans ?_
  calc _ ≤ ε / 2 * (s * s) + ε / 2 * (s * s) := add_le_add key hle'
    _ = ε * (s * s) := by ring

/-- deviations added up -/
def Around.plus (a b : Around V) : Around V :=
  ⟨fun c => a.before c + b.before c, fun c => a.now c + b.now c, fun c => a.after c + b.after c, fun k => a.shock k + b.shock k⟩

theorem flat_plus {t : Llx} {nExog : Nat} {a b : Around V} {D E : Nat → V} (hD : Flat t nExog a D)
    (hE : Flat t nExog b E) : Flat t nExog (a.plus b) fun k => D k + E k :=
  ⟨fun c k hk => by simp only [Around.plus, hD.before c k hk, hE.before c k hk],
    fun c k hk => by simp only [Around.plus, hD.now c k hk, hE.now c k hk],
    fun c k hk => by simp only [Around.plus, hD.after c k hk, hE.after c k hk],
    fun j hj => by simp only [Around.plus, hD.shock j hj, hE.shock j hj]⟩

/-- mixed second derivatives from those in one direction -/
theorem curvature_polar {pss : List (List Int)} {t : Llx} (ht : buildLlx pss = .ok t) {nExog : Nat} {H : Arr V} {i : Nat}
    (hs : ∀ p < t.count + nExog, ∀ q < t.count + nExog,
      H.e i (p * (t.count + nExog) + q) = H.e i (q * (t.count + nExog) + p)) (a b : Around V) :
    2 * curvature t nExog H i a b = curvature t nExog H i (a.plus b) (a.plus b) - curvature t nExog H i a a -
      curvature t nExog H i b b := by
  obtain ⟨D, hD⟩ := flat_exists ht nExog a
  obtain ⟨E, hE⟩ := flat_exists ht nExog b
  rw [curvature_flat ht hD hE, curvature_flat ht hD hD, curvature_flat ht hE hE,
    curvature_flat ht (flat_plus hD hE) (flat_plus hD hE)]
  set N := t.count + nExog
  have sw : (sumTo N fun k => sumTo N fun l => H.e i (k * N + l) * (D k * E l)) =
      sumTo N fun k => sumTo N fun l => H.e i (k * N + l) * (E k * D l) := by
    simp only [sumTo_eq]
    rw [Finset.sum_comm]
    refine Finset.sum_congr rfl fun k hk => Finset.sum_congr rfl fun l hl => ?_
    rw [hs l (Finset.mem_range.mp hl) k (Finset.mem_range.mp hk)]
    ring
  rw [two_mul]
  nth_rw 2 [sw]
  simp only [sumTo_eq, ← Finset.sum_add_distrib, ← Finset.sum_sub_distrib]
  exact Finset.sum_congr rfl fun k _ => Finset.sum_congr rfl fun l _ => by ring

/-- combinations of equations hold where the equations do -/
theorem CombinesNear.implies {ops : Ops V} {m m' : ModelFile V} {σ σ' : String → Option V} {a : String → V}
    (h : CombinesNear ops m σ m' σ' a) : ImpliesNear ops m σ m' σ' a := by
  have all : ∀ es : List (Expr V × Expr V), (∀ p ∈ es, p ∈ equations m'.stmts) → ∃ K : V, ∃ δ > 0, 0 ≤ K ∧
      ∀ p ∈ es, ∃ c : Nat → V, (∑ i ∈ Finset.range (equations m.stmts).length, |c i|) ≤ K ∧ ∀ ym y yp u : String → V,
        (∀ x ∈ m.names "var", |ym x - a x| ≤ δ ∧ |y x - a x| ≤ δ ∧ |yp x - a x| ≤ δ) →
        (∀ x ∈ m.names "varexo", |u x| ≤ δ) → ∀ w : Nat → V, (∀ (i : Nat) l r, (equations m.stmts)[i]? = some (l, r) →
          GapIs ops m σ (named m ym y yp u) l r (w i)) →
        GapIs ops m' σ' (named m' ym y yp u) p.1 p.2 (sumTo (equations m.stmts).length fun i => c i * w i) := by
    intro es
    induction es with
    | nil => exact fun _ => ⟨0, 1, one_pos, le_rfl, fun p hp => by cases hp⟩
    | cons e es ih =>
      intro hes
      obtain ⟨K, δ, hδ, hK, h1⟩ := ih fun p hp => hes p (.tail _ hp)
      obtain ⟨c, δ', hδ', h2⟩ := h e.1 e.2 (hes e (.head _))
      refine ⟨max K (∑ i ∈ Finset.range (equations m.stmts).length, |c i|), min δ δ', lt_min hδ hδ',
        hK.trans (le_max_left _ _), fun p hp => ?_⟩
      rcases List.mem_cons.mp hp with rfl | hp
      · exact ⟨c, le_max_right _ _, fun ym y yp u hy hu => h2 ym y yp u
          (fun x hx => ⟨(hy x hx).1.trans (min_le_right _ _), (hy x hx).2.1.trans (min_le_right _ _),
            (hy x hx).2.2.trans (min_le_right _ _)⟩) fun x hx => (hu x hx).trans (min_le_right _ _)⟩
      · obtain ⟨c', hc', h3⟩ := h1 p hp
        exact ⟨c', hc'.trans (le_max_left _ _), fun ym y yp u hy hu => h3 ym y yp u
          (fun x hx => ⟨(hy x hx).1.trans (min_le_left _ _), (hy x hx).2.1.trans (min_le_left _ _),
            (hy x hx).2.2.trans (min_le_left _ _)⟩) fun x hx => (hu x hx).trans (min_le_left _ _)⟩
  obtain ⟨K, δ, hδ, hK, all⟩ := all _ fun _ h => h
  by_cases hm : equations m.stmts = []
  · refine ⟨0, δ, hδ, fun ym y yp u hy hu η _ l' r' hlr => ?_⟩
    obtain ⟨c, -, h1⟩ := all (l', r') hlr
    have := h1 ym y yp u hy hu (fun _ => 0) fun (i : Nat) l r hi => by rw [hm] at hi; cases hi
    exact ⟨_, this, by simp [hm, sumTo_eq]⟩
  · refine ⟨K, δ, hδ, fun ym y yp u hy hu η hmet l' r' hlr => ?_⟩
    obtain ⟨c, hc, h1⟩ := all (l', r') hlr
    have hex : ∀ i : Nat, ∃ w, ∀ l r, (equations m.stmts)[i]? = some (l, r) →
        GapIs ops m σ (named m ym y yp u) l r w ∧ |w| ≤ η := by
      intro i
      by_cases hi : i < (equations m.stmts).length
      · obtain ⟨w, hw⟩ := hmet ((equations m.stmts)[i]).1 ((equations m.stmts)[i]).2 (List.getElem_mem hi)
        refine ⟨w, fun l r hlr => ?_⟩
        rw [List.getElem?_eq_getElem hi] at hlr
        have e := Option.some.inj hlr
        rw [e] at hw
        exact hw
      · exact ⟨0, fun l r hlr => absurd (List.getElem?_eq_some_iff.mp hlr).1 hi⟩
    choose w hw using hex
    have hη : 0 ≤ η := by
      obtain ⟨p, es, hp⟩ := List.exists_cons_of_ne_nil hm
      exact (abs_nonneg _).trans (hw 0 p.1 p.2 (by rw [hp]; rfl)).2
    refine ⟨_, h1 ym y yp u hy hu w fun i l r hi => (hw i l r hi).1, ?_⟩
    rw [sumTo_eq]
    calc _ ≤ ∑ i ∈ Finset.range (equations m.stmts).length, |c i * w i| := Finset.abs_sum_le_sum_abs _ _
      _ ≤ ∑ i ∈ Finset.range (equations m.stmts).length, |c i| * η := by
        refine Finset.sum_le_sum fun i hi => ?_
        rw [abs_mul]
        exact mul_le_mul_of_nonneg_left (hw i _ _ (List.getElem?_eq_getElem (Finset.mem_range.mp hi))).2 (abs_nonneg _)
      _ = (∑ i ∈ Finset.range (equations m.stmts).length, |c i|) * η := by rw [Finset.sum_mul]
      _ ≤ K * η := mul_le_mul_of_nonneg_right hc hη

end Pynare
