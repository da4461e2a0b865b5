import Verif.Lemmas.Simul
import Verif.Props.FirstOrder
import Verif.Examples.Simul
import Mathlib.Algebra.Order.Ring.Rat
/-!
# C49 to C56, C74 and C75: simulations and impulse responses
-/

namespace Pynare

variable {V : Type} [CommRing V]

set_option linter.unusedSectionVars false

/-! ### C49: the first-order simulation follows the policy functions -/

/-- **C49, shape and first row.** The simulated paths have one row for each row of shocks and one column
for each variable, and the first row is the initial value. -/
theorem C49_first_row (t : Typer) (gy gu : Arr V) (ys init : List V) (shocks p : Arr V)
    (h : simulateFirst t gy gu ys shocks init = .ok p) :
    p.r = shocks.r ∧ p.c = ys.length ∧ ∀ c < ys.length, init[c]? = some (p.e 0 c) := by
  obtain ⟨innovs, -, -, hl, -, -, -, rfl⟩ := simulateFirst_ok h
  refine ⟨rfl, rfl, ?_⟩
  intro c hc
  have hc' : c < init.length := by omega
  rw [List.getElem?_eq_getElem hc']
  simp only [devFirst, List.getElem?_eq_getElem hc', Option.getD_some, sub_add_cancel]

/-- **C49.** If the decision-rule order lists every variable once, then in every later row the deviations
from the steady state are what the policy functions make of the deviations in the row before and of the
shocks in the row before.  (One row of responses to several shocks is excluded; such a solution is not
simulated at all, see C75.) -/
theorem C49_follows_policy (t : Typer) (hp : t.drOrder.Perm (List.range t.n)) (gy gu : Arr V)
    (ys init : List V) (shocks p : Arr V) (hs : gu.r ≠ 1 ∨ gu.c = 1)
    (h : simulateFirst t gy gu ys shocks init = .ok p) :
    ∀ k, k + 1 < p.r →
      FollowsPolicy t shocks.c gy gu (dev ys p k) (fun j => shocks.e k j) (dev ys p (k + 1)) := by
  obtain ⟨innovs, hi, -, hl, hsh, -, -, rfl⟩ := simulateFirst_ok h
  intro k hk
  have hk : k + 1 < shocks.r := hk
  obtain ⟨s1, s2, s3⟩ := hsh (by omega)
  obtain ⟨d1, d2, d3⟩ := innov_row hi hs
  obtain ⟨o1, o2, o3⟩ := drState_length hp
  have e : ∀ k, dev ys ⟨shocks.r, ys.length, fun k c =>
      devFirst t gy innovs.e (fun c => init[c]?.getD 0 - ys[c]?.getD 0) k c + ys[c]?.getD 0⟩ k =
      devFirst t gy innovs.e (fun c => init[c]?.getD 0 - ys[c]?.getD 0) k := by
    intro k; funext c; simp [dev]
  rw [e, e]
  exact stepFirst_follows hp s1 fun i hi => d3 k (by omega) i (by omega)

/-- a simulation meets the hypotheses of C49: two states, two shocks, three periods -/
theorem sm_first : ∃ p, simulateFirst smT smGy smGu smYs smShocks smInit = .ok p ∧ p.r = 3 ∧
    p.e 1 0 = 13/4 ∧ p.e 2 0 = 9/16 ∧ p.e 2 1 = 21/4 := by
  obtain ⟨p, hp, h⟩ := ok_of_check (x := simulateFirst smT smGy smGu smYs smShocks smInit)
    (p := fun p => decide (p.r = 3) && decide (p.e 1 0 = 13/4) && decide (p.e 2 0 = 9/16) &&
      decide (p.e 2 1 = 21/4)) (by decide +kernel)
  simp only [Bool.and_eq_true, decide_eq_true_eq] at h
  exact ⟨p, hp, h.1.1.1, h.1.1.2, h.1.2, h.2⟩

example : smT.drOrder.Perm (List.range smT.n) ∧ (smGu.r ≠ 1 ∨ smGu.c = 1) := by
  constructor
  · exact List.Perm.swap _ _ _
  · exact .inl (by decide)

/-- **C46 for simulations** (partial, as C46).  In every period of a simulation of the computed first-order
solution, the linearised equations hold for the simulated deviations of two successive rows, the shocks
of the first of them and the values the policy functions predict for the next period. -/
theorem C46_simulated_partial (la : LinAlg V) (ex : la.Exact) (pss : List (List Int)) (t : Llx)
    (hps : ∀ ps ∈ pss, 0 ∈ ps ∧ ∀ p ∈ ps, p = -1 ∨ p = 0 ∨ p = 1) (ht : buildLlx pss = .ok t)
    (J : Arr V) (hJ : J.r = pss.length) (s : Space V) (gy gu shocks p : Arr V) (ys init : List V)
    (hc : Space.create la t.toTyper J = .ok s) (hsep : s.parts.Separated)
    (hsol : solveFirstOrder la t shocks.c s = .ok (gy, gu)) (hs : gu.r ≠ 1 ∨ gu.c = 1)
    (h : simulateFirst t.toTyper gy gu ys shocks init = .ok p) (k : Nat) (hk : k + 1 < p.r)
    (yE : Nat → V) (hE : FollowsPolicy t.toTyper shocks.c gy gu (dev ys p (k + 1)) (fun _ => 0) yE) :
    ∀ i < J.r, linearised t shocks.c J i (dev ys p k) (dev ys p (k + 1)) yE (fun j => shocks.e k j) = 0 := by
  obtain ⟨t', ht', hn, hcell, -⟩ := C28_numbering pss (fun ps h h0 => by
    have := (hps ps h).1; rw [h0] at this; cases this) (fun ps h => (hps ps h).2)
  rw [ht] at ht'
  have := Except.ok.inj ht'
  subst this
  have hcur : ∀ c < t.n, t.has 1 c = true := by
    intro c hcn
    have hc' : c < pss.length := by omega
    exact Option.isSome_iff_exists.mpr ((hcell c pss[c] 0 (List.getElem?_eq_getElem hc') (by omega)).mpr
      (hps _ (List.getElem_mem hc')).1)
  have hpos := (C73_refused la ex t shocks.c hcur J s gy gu hc hsol).1
  have hst := (C32_static_count_with_lag_partial ht (by
    intro h0; rw [(C31_sizes t.toTyper).2.1, h0] at hpos; cases hpos)).1
  intro i hi
  exact linearised_zero ex hcur hst (by omega) hc hsep hsol
    (C49_follows_policy t.toTyper (groups hcur).perm gy gu ys init shocks p hs h k hk) hE i (by omega)

/-- a simulation meets the hypotheses -/
example : ∃ (s : Space ℚ) (gy gu p : Arr ℚ),
    Space.create (exLa 2 stab expl) exT.toTyper (exJ 2) = .ok s ∧ s.parts.Separated ∧
    solveFirstOrder (exLa 2 stab expl) exT 1 s = .ok (gy, gu) ∧ (gu.r ≠ 1 ∨ gu.c = 1) ∧
    simulateFirst exT.toTyper gy gu [0, 0, 0] (listArr [[1], [0], [2]] 1) [0, 1, 0] = .ok p ∧ p.r = 3 ∧
    p.e 1 1 = -1/10 := by
  obtain ⟨s, hs, h⟩ := ok_of_check (x := Space.create (exLa 2 stab expl) exT.toTyper (exJ 2))
    (p := fun s => s.parts.eigs == [stab, expl] &&
      okAnd (solveFirstOrder (exLa 2 stab expl) exT 1 s) fun g => decide (g.2.r ≠ 1 ∨ g.2.c = 1) &&
        okAnd (simulateFirst exT.toTyper g.1 g.2 [0, 0, 0] (listArr [[1], [0], [2]] 1) [0, 1, 0]) fun p =>
          decide (p.r = 3) && decide (p.e 1 1 = -1/10)) (by decide +kernel)
  rw [Bool.and_eq_true] at h
  obtain ⟨⟨gy, gu⟩, hg, h'⟩ := ok_of_check h.2
  rw [Bool.and_eq_true, decide_eq_true_eq] at h'
  obtain ⟨p, hp, h''⟩ := ok_of_check h'.2
  simp only [Bool.and_eq_true, decide_eq_true_eq] at h''
  refine ⟨s, gy, gu, p, hs, .inl ?_, hg, h'.1, hp, h''.1, h''.2⟩
  rw [beq_iff_eq.mp h.1]
  exact ⟨expl, by simp, rfl⟩

/-! ### C50 to C52 -/

/-- **C50.** Superposition: if two simulations of a solution succeed, then so does the simulation with
the linear combination `a, b` of the shocks, from the linear combination of the initial deviations, and
its deviations from the steady state are the linear combination of those of the two simulations. -/
theorem C50_superposition (t : Typer) (gy gu : Arr V) (ys i1 i2 i3 : List V) (s1 s2 s3 p1 p2 : Arr V)
    (a b : V) (h1 : simulateFirst t gy gu ys s1 i1 = .ok p1) (h2 : simulateFirst t gy gu ys s2 i2 = .ok p2)
    (hr : s2.r = s1.r ∧ s3.r = s1.r) (hc : s2.c = s1.c ∧ s3.c = s1.c)
    (hs : ∀ k < s1.r, ∀ j < s1.c, s3.e k j = a * s1.e k j + b * s2.e k j)
    (hl : i3.length = ys.length)
    (hi : ∀ c < ys.length, i3[c]?.getD 0 - ys[c]?.getD 0 =
      a * (i1[c]?.getD 0 - ys[c]?.getD 0) + b * (i2[c]?.getD 0 - ys[c]?.getD 0)) :
    ∃ p3, simulateFirst t gy gu ys s3 i3 = .ok p3 ∧ p3.r = p1.r ∧ p3.c = p1.c ∧
      ∀ k < p1.r, ∀ c, dev ys p3 k c = a * dev ys p1 k c + b * dev ys p2 k c := by
  obtain ⟨v1, hv1, r1, l1, c1, g1, g1', rfl⟩ := simulateFirst_ok h1
  obtain ⟨v2, hv2, r2, l2, c2, -, -, rfl⟩ := simulateFirst_ok h2
  obtain ⟨d1, d2, d3, d4⟩ := dot_entry hv1
  obtain ⟨e1, e2, e3, e4⟩ := dot_entry hv2
  have hv3 : s3.dot gu.squeezed.tr = .ok ⟨s3.r, gu.squeezed.tr.c, fun i j =>
      sumTo s3.c fun k => s3.e i k * gu.squeezed.tr.e k j⟩ := by
    unfold Arr.dot; rw [if_pos (by omega)]
  refine ⟨_, simulateFirst_succeeds (by omega) hl hv3 g1 g1' (fun h => ?_), hr.2, rfl, ?_⟩
  · obtain ⟨x1, x2, x3⟩ := c1 (by omega)
    exact ⟨x1, x2, by rw [← x3, d3]⟩
  · intro k hk c
    have hk : k < s1.r := hk
    simp only [dev, add_sub_cancel_right]
    refine devFirst_linear t gy _ v1.e v2.e _ _ _ a b s1.r ?_ ?_ k hk c
    · intro k hk j _
      rw [d4, e4, hc.1]
      show (sumTo s3.c fun l => s3.e k l * gu.squeezed.tr.e l j) = _
      rw [hc.2, ← sumTo_linear]
      refine sumTo_congr fun l hl => ?_
      rw [hs k (by omega) l hl]; ring
    · intro c
      by_cases h : c < ys.length
      · exact hi c h
      · have n1 : i1[c]? = none := List.getElem?_eq_none (by omega)
        have n2 : i2[c]? = none := List.getElem?_eq_none (by omega)
        have n3 : i3[c]? = none := List.getElem?_eq_none (by omega)
        have n4 : ys[c]? = none := List.getElem?_eq_none (by omega)
        rw [n1, n2, n3, n4]; simp

/-- twice one simulation minus another -/
example : ∃ p1 p2 p3, simulateFirst smT smGy smGu smYs smShocks smInit = .ok p1 ∧
    simulateFirst smT smGy smGu smYs (listArr [[0, 1], [1, 1], [0, 0]] 2) [0, 1] = .ok p2 ∧
    simulateFirst smT smGy smGu smYs (listArr [[2, -1], [-1, -3], [10, 10]] 2) [4, 3] = .ok p3 ∧
    p3.e 2 0 - 1 = 2 * (p1.e 2 0 - 1) + -1 * (p2.e 2 0 - 1) ∧ p3.e 2 0 ≠ 1 := by
  obtain ⟨p1, h1, h⟩ := ok_of_check (x := simulateFirst smT smGy smGu smYs smShocks smInit)
    (p := fun p1 => okAnd (simulateFirst smT smGy smGu smYs (listArr [[0, 1], [1, 1], [0, 0]] 2) [0, 1])
      fun p2 => okAnd (simulateFirst smT smGy smGu smYs (listArr [[2, -1], [-1, -3], [10, 10]] 2) [4, 3])
        fun p3 => decide (p3.e 2 0 - 1 = 2 * (p1.e 2 0 - 1) + -1 * (p2.e 2 0 - 1) ∧ p3.e 2 0 ≠ 1))
    (by decide +kernel)
  obtain ⟨p2, h2, h⟩ := ok_of_check h
  obtain ⟨p3, h3, h⟩ := ok_of_check h
  exact ⟨p1, p2, p3, h1, h2, h3, of_decide_eq_true h⟩

/-- **C51.** Without shocks the steady state is a rest point: a first-order simulation with zero shocks
from the steady state returns the steady state in every row. -/
theorem C51_rest_point (t : Typer) (gy gu : Arr V) (ys : List V) (shocks p : Arr V)
    (h0 : ∀ k < shocks.r, ∀ j < shocks.c, shocks.e k j = 0)
    (h : simulateFirst t gy gu ys shocks ys = .ok p) :
    ∀ k < p.r, ∀ c < ys.length, ys[c]? = some (p.e k c) := by
  obtain ⟨p3, hp3, r3, c3, h3⟩ := C50_superposition t gy gu ys ys ys ys shocks shocks shocks p p 0 0 h h
    ⟨rfl, rfl⟩ ⟨rfl, rfl⟩ (fun k hk j hj => by rw [h0 k hk j hj]; simp) rfl (fun c _ => by simp)
  rw [h] at hp3
  have := Except.ok.inj hp3
  subst this
  intro k hk c hc
  have := h3 k hk c
  rw [List.getElem?_eq_getElem hc]
  simp only [dev, List.getElem?_eq_getElem hc, Option.getD_some, zero_mul, add_zero] at this
  rw [sub_eq_zero.mp this]

/-- from the steady state without shocks -/
example : ∃ p, simulateFirst smT smGy smGu smYs ⟨4, 2, fun _ _ => 0⟩ smYs = .ok p ∧ p.e 3 1 = 2 := by
  obtain ⟨p, h, h'⟩ := ok_of_check (x := simulateFirst smT smGy smGu smYs ⟨4, 2, fun _ _ => 0⟩ smYs)
    (p := fun p => decide (p.e 3 1 = 2)) (by decide +kernel)
  exact ⟨p, h, of_decide_eq_true h'⟩

/-- **C52, first order.** Causality: if two shock arrays agree in the first `τ` rows, the simulated
paths agree up to and including row `τ`. -/
theorem C52_causal_first (t : Typer) (gy gu : Arr V) (ys init : List V) (s1 s2 p1 p2 : Arr V) (τ : Nat)
    (h1 : simulateFirst t gy gu ys s1 init = .ok p1) (h2 : simulateFirst t gy gu ys s2 init = .ok p2)
    (hs : ∀ k < τ, ∀ j < s1.c, s1.e k j = s2.e k j) :
    ∀ k ≤ τ, ∀ c, p1.e k c = p2.e k c := by
  obtain ⟨v1, hv1, r1, l1, c1, g1, g1', rfl⟩ := simulateFirst_ok h1
  obtain ⟨v2, hv2, r2, l2, c2, -, -, rfl⟩ := simulateFirst_ok h2
  obtain ⟨d1, d2, d3, d4⟩ := dot_entry hv1
  obtain ⟨e1, e2, e3, e4⟩ := dot_entry hv2
  intro k hk c
  show devFirst t gy v1.e _ k c + _ = devFirst t gy v2.e _ k c + _
  rw [devFirst_causal t gy v1.e v2.e _ τ ?_ k hk]
  intro k hk j _
  rw [d4, e4, show s2.c = s1.c by omega]
  exact sumTo_congr fun l hl => by rw [hs k hk l hl]

theorem pathSecond_causal (t : Typer) (gy gu : Arr V) (s : Second V) (ys : List V) (s1 s2 : Arr V)
    (p0 : Nat → V) (τ : Nat) (hc : s1.c = s2.c) (hs : ∀ k < τ, ∀ j < s1.c, s1.e k j = s2.e k j) :
    ∀ k ≤ τ, pathSecond t gy gu s ys s1 p0 k = pathSecond t gy gu s ys s2 p0 k
  | 0, _ => rfl
  | k + 1, hk => by
    rw [pathSecond, pathSecond, pathSecond_causal t gy gu s ys s1 s2 p0 τ hc hs k (by omega)]
    have : (List.range s1.c).map (fun j => s1.e k j) = (List.range s2.c).map fun j => s2.e k j := by
      rw [← hc]
      exact List.map_congr_left fun j hj => hs k (by omega) j (List.mem_range.mp hj)
    rw [this]

/-- what a successful second-order simulation went through -/
theorem simulateSecond_ok {half : V} {t : Typer} {gy gu : Arr V} {s : Second V} {ys init : List V}
    {shocks p : Arr V} (h : simulateSecond half t gy gu s ys shocks init = .ok p) :
    0 < shocks.r ∧ init.length = ys.length ∧ (1 < shocks.r → gy.c = t.drState.length ∧ gu.c = shocks.c) ∧
    p.r = shocks.r ∧ p.c = ys.length ∧
    (∃ row, pathSecond t gy gu (s.used half) ys shocks (fun c => init[c]?.getD 0) (shocks.r - 1) = .ok row) ∧
    ∀ k row, pathSecond t gy gu (s.used half) ys shocks (fun c => init[c]?.getD 0) k = .ok row →
      ∀ c, p.e k c = row c := by
  unfold simulateSecond at h
  by_cases h0 : shocks.r = 0
  · rw [if_pos h0] at h; cases h
  rw [if_neg h0] at h
  by_cases h1 : init.length ≠ ys.length
  · rw [if_pos h1] at h; cases h
  rw [if_neg h1] at h
  by_cases h2 : shocks.r > 1 ∧ ¬ (gy.c = t.drState.length ∧ gu.c = shocks.c)
  · rw [if_pos h2] at h; cases h
  rw [if_neg h2] at h
  obtain ⟨row, hrow, h⟩ := Except.bind_eq_ok h
  have := Except.ok.inj h
  subst this
  refine ⟨by omega, by omega, ?_, rfl, rfl, ⟨row, hrow⟩, ?_⟩
  · intro h5
    by_contra h6
    exact h2 ⟨h5, h6⟩
  · intro k row hk c
    simp only [hk]

theorem pathSecond_prefix {t : Typer} {gy gu : Arr V} {s : Second V} {ys : List V} {shocks : Arr V}
    {p0 : Nat → V} {k : Nat} : ∀ {m : Nat} {row : Nat → V},
    pathSecond t gy gu s ys shocks p0 m = .ok row → k ≤ m →
    ∃ row', pathSecond t gy gu s ys shocks p0 k = .ok row'
  | 0, row, h, hk => ⟨row, by rw [show k = 0 by omega]; exact h⟩
  | m + 1, row, h, hk => by
    rcases Nat.eq_or_lt_of_le hk with h' | h'
    · exact ⟨row, by rw [h']; exact h⟩
    · rw [pathSecond] at h
      obtain ⟨prev, hp, -⟩ := Except.bind_eq_ok h
      exact pathSecond_prefix hp (by omega)

/-- **C52, second order.** -/
theorem C52_causal_second (half : V) (t : Typer) (gy gu : Arr V) (s : Second V) (ys init : List V)
    (s1 s2 p1 p2 : Arr V) (τ : Nat) (hr : s1.r = s2.r) (hc : s1.c = s2.c)
    (h1 : simulateSecond half t gy gu s ys s1 init = .ok p1)
    (h2 : simulateSecond half t gy gu s ys s2 init = .ok p2)
    (hs : ∀ k < τ, ∀ j < s1.c, s1.e k j = s2.e k j) :
    ∀ k ≤ τ, k < s1.r → ∀ c, p1.e k c = p2.e k c := by
  obtain ⟨-, -, -, -, -, ⟨row1, hr1⟩, e1⟩ := simulateSecond_ok h1
  obtain ⟨-, -, -, -, -, ⟨row2, hr2⟩, e2⟩ := simulateSecond_ok h2
  intro k hk hk' c
  obtain ⟨row, hrow⟩ := pathSecond_prefix (k := k) hr1 (by omega)
  rw [e1 k row hrow c]
  rw [pathSecond_causal t gy gu (s.used half) ys s1 s2 _ τ hc hs k hk] at hrow
  rw [e2 k row hrow c]

/-- **C52, the last row of shocks** has no effect on a simulation, of either order. -/
theorem C52_last_shock_unused (half : V) (t : Typer) (gy gu : Arr V) (s : Second V) (ys init : List V)
    (s1 s2 p1 p2 : Arr V) (hr : s1.r = s2.r) (hc : s1.c = s2.c)
    (hs : ∀ k, k + 1 < s1.r → ∀ j < s1.c, s1.e k j = s2.e k j)
    (h : (simulateFirst t gy gu ys s1 init = .ok p1 ∧ simulateFirst t gy gu ys s2 init = .ok p2) ∨
      (simulateSecond half t gy gu s ys s1 init = .ok p1 ∧
        simulateSecond half t gy gu s ys s2 init = .ok p2)) :
    ∀ k < s1.r, ∀ c, p1.e k c = p2.e k c := by
  intro k hk c
  rcases h with ⟨h1, h2⟩ | ⟨h1, h2⟩
  · exact C52_causal_first t gy gu ys init s1 s2 p1 p2 (s1.r - 1) h1 h2
      (fun k hk => hs k (by omega)) k (by omega) c
  · exact C52_causal_second half t gy gu s ys init s1 s2 p1 p2 (s1.r - 1) hr hc h1 h2
      (fun k hk => hs k (by omega)) k (by omega) hk c

/-- two simulations, both orders, whose shocks differ from the second period on -/
example : ∃ p1 p2 q1 q2, simulateFirst smT smGy smGu smYs smShocks smInit = .ok p1 ∧
    simulateFirst smT smGy smGu smYs (listArr [[1, 0], [7, 7], [7, 7]] 2) smInit = .ok p2 ∧
    simulateSecond (1/2) smT smGy smGu smS smYs smShocks smInit = .ok q1 ∧
    simulateSecond (1/2) smT smGy smGu smS smYs (listArr [[1, 0], [7, 7], [7, 7]] 2) smInit = .ok q2 ∧
    p1.e 2 0 ≠ p2.e 2 0 ∧ q1.e 2 0 ≠ q2.e 2 0 := by
  obtain ⟨p1, h1, h⟩ := ok_of_check (x := simulateFirst smT smGy smGu smYs smShocks smInit)
    (p := fun p1 => okAnd (simulateFirst smT smGy smGu smYs (listArr [[1, 0], [7, 7], [7, 7]] 2) smInit)
      fun p2 => okAnd (simulateSecond (1/2) smT smGy smGu smS smYs smShocks smInit) fun q1 =>
        okAnd (simulateSecond (1/2) smT smGy smGu smS smYs (listArr [[1, 0], [7, 7], [7, 7]] 2) smInit)
          fun q2 => decide (p1.e 2 0 ≠ p2.e 2 0 ∧ q1.e 2 0 ≠ q2.e 2 0)) (by decide +kernel)
  obtain ⟨p2, h2, h⟩ := ok_of_check h
  obtain ⟨q1, h3, h⟩ := ok_of_check h
  obtain ⟨q2, h4, h⟩ := ok_of_check h
  have := of_decide_eq_true h
  exact ⟨p1, p2, q1, q2, h1, h2, h3, h4, this.1, this.2⟩

/-! ### C53 and C74: second order -/

/-- the terms of the Kronecker helper for more than one column -/
theorem term_ok (a : Arr V) (x y : List V) (n : Nat) (hr : a.r = n) (hc : a.c = x.length * y.length)
    (h1 : a.c ≠ 1) : ∃ v, matrixKroneckerVec a x y = .ok v ∧ ∃ f, termOf n v = .ok f ∧
      ∀ i < n, f i = sumTo x.length fun p => sumTo y.length fun q =>
        a.e i (p * y.length + q) * (x[p]?.getD 0 * y[q]?.getD 0) := by
  obtain ⟨v, hv, -, hg⟩ := C68_bilinear_partial a x y hc h1
  refine ⟨_, hv, _, rfl, ?_⟩
  intro i hi
  rw [hg i (by omega)]
  rfl

theorem sumTo_half (h : V) (n : Nat) (f : Nat → V) : (sumTo n fun i => h * f i) = h * sumTo n f := by
  rw [sumTo_eq, sumTo_eq, Finset.mul_sum]

/-- one step of a second-order simulation, for several states and several shocks -/
theorem stepSecond_ok (half : V) (t : Typer) (hn : t.drOrder.Nodup) (gy gu : Arr V) (s : Second V)
    (ys yhat u : List V) (hf : s.Fits t.drOrder.length yhat.length u.length)
    (h1 : 1 < yhat.length) (h2 : 1 < u.length) :
    ∃ row, stepSecond t gy gu (s.used half) ys yhat u = .ok row ∧
      ∀ i c, t.drOrder[i]? = some c →
        row c = taylor2 half gy gu ⟨s.ghxx, s.ghxu, s.ghuu, s.del2.scale half⟩ (ys[c]?.getD 0) yhat u i := by
  obtain ⟨⟨f1, f2⟩, ⟨f3, f4⟩, f5, f6⟩ := hf
  have big : ∀ {m n : Nat}, 1 < m → 1 < n → m * n ≠ 1 := by
    intro m n hm hn e
    have := Nat.eq_one_of_mul_eq_one_right e
    omega
  obtain ⟨xx, hxx, dxx, hdxx, exx⟩ := term_ok (s.ghxx.scale half) yhat yhat t.drOrder.length f1 f2
    (by rw [show (s.ghxx.scale half).c = s.ghxx.c from rfl, f2]; exact big h1 h1)
  obtain ⟨uu, huu, duu, hduu, euu⟩ := term_ok (s.ghuu.scale half) u u t.drOrder.length f3 f4
    (by rw [show (s.ghuu.scale half).c = s.ghuu.c from rfl, f4]; exact big h2 h2)
  obtain ⟨xu, hxu, dxu, hdxu, exu⟩ := term_ok s.ghxu yhat u t.drOrder.length f5 f6
    (by rw [f6]; exact big h1 h2)
  unfold stepSecond
  simp only [Second.used]
  rw [bind_ok_of_eq _ hxx, bind_ok_of_eq _ huu, bind_ok_of_eq _ hxu, bind_ok_of_eq _ hdxx,
    bind_ok_of_eq _ hduu, bind_ok_of_eq _ hdxu]
  refine ⟨_, rfl, ?_⟩
  intro i c hic
  have hil : i < t.drOrder.length := (List.getElem?_eq_some_iff.mp hic).1
  rw [scatter_get hn _ _ hic, hic, exx i hil, euu i hil, exu i hil]
  simp only [taylor2, Arr.scale, Option.getD_some, ← sumTo_half]
  have e1 : ∀ (m : Nat) (a : Nat → V) (x : Nat → V), (sumTo m fun l => half * (a l * x l)) =
      sumTo m fun l => half * a l * x l := fun m a x => sumTo_congr fun l _ => by ring
  simp only [e1]
  ring

/-- **C53, what does hold** (partial: `half * half` where the Taylor expansion has `half`, and half of the
constant).  For several states and several shocks, in every later row of a simulation of the stored
second-order solution, variable number `i` in decision-rule order has the value of the second-order Taylor
expansion in which the second derivatives with respect to states and with respect to shocks and the
constant are replaced by half of what the solution says. -/
theorem C53_step_partial (half : V) (t : Typer) (hp : t.drOrder.Perm (List.range t.n)) (gy gu : Arr V)
    (s : Second V) (ys init : List V) (shocks p : Arr V)
    (hf : s.Fits t.n t.nBackward shocks.c) (h1 : 1 < t.nBackward) (h2 : 1 < shocks.c)
    (h : simulateSecond half t gy gu (s.stored half) ys shocks init = .ok p) :
    (∀ c < ys.length, init[c]? = some (p.e 0 c)) ∧
    ∀ k, k + 1 < p.r → ∀ i c, t.drOrder[i]? = some c →
      p.e (k + 1) c = taylor2 half gy gu
        ⟨s.ghxx.scale half, s.ghxu, s.ghuu.scale half, s.del2.scale half⟩ (ys[c]?.getD 0)
        (t.drState.map (dev ys p k)) ((List.range shocks.c).map fun j => shocks.e k j) i := by
  obtain ⟨r1, r2, r3, r4, r5, ⟨last, hlast⟩, e⟩ := simulateSecond_ok h
  obtain ⟨o1, o2, o3⟩ := drState_length hp
  constructor
  · intro c hc
    have hc' : c < init.length := by omega
    rw [e 0 _ rfl c, List.getElem?_eq_getElem hc']
    rfl
  · intro k hk i c hic
    obtain ⟨row, hrow⟩ := pathSecond_prefix (k := k + 1) hlast (by omega)
    rw [e _ _ hrow c]
    rw [pathSecond] at hrow
    obtain ⟨prev, hprev, hstep⟩ := Except.bind_eq_ok hrow
    obtain ⟨row', hrow', hval⟩ := stepSecond_ok half t o3 gy gu (s.stored half) ys
      (t.drState.map fun c => prev c - ys[c]?.getD 0) ((List.range shocks.c).map fun j => shocks.e k j)
      (by rw [List.length_map, List.length_map, List.length_range, o1, o2]; exact hf)
      (by rw [List.length_map]; omega) (by rw [List.length_map, List.length_range]; omega)
    rw [hstep] at hrow'
    have := Except.ok.inj hrow'
    subst this
    rw [hval i c hic]
    have hd : t.drState.map (dev ys p k) = t.drState.map fun c => prev c - ys[c]?.getD 0 :=
      List.map_congr_left fun c _ => by simp only [dev, e k prev hprev c]
    rw [hd]
    rfl

/-- **C53 is false.** A simulated step of a stored second-order solution is not the second-order Taylor
expansion: a solution with second derivatives `4` and `8`, whose value after one period should be `25/4`
for the first variable, is simulated to be `19/4`. -/
theorem C53_false : ∃ p, simulateSecond (1/2 : ℚ) smT smGy smGu (smS.stored (1/2)) smYs smShocks smInit =
      .ok p ∧ smT.drOrder[1]? = some 0 ∧
    p.e 1 0 = 19/4 ∧ taylor2 (1/2) smGy smGu smS (smYs[0]?.getD 0) (smT.drState.map (dev smYs p 0))
      ((List.range smShocks.c).map fun j => smShocks.e 0 j) 1 = 25/4 := by
  obtain ⟨p, h, h'⟩ := ok_of_check
    (x := simulateSecond (1/2 : ℚ) smT smGy smGu (smS.stored (1/2)) smYs smShocks smInit)
    (p := fun p => decide (p.e 1 0 = 19/4 ∧ taylor2 (1/2) smGy smGu smS (smYs[0]?.getD 0)
      (smT.drState.map (dev smYs p 0)) ((List.range smShocks.c).map fun j => smShocks.e 0 j) 1 = 25/4))
    (by decide +kernel)
  exact ⟨p, h, rfl, of_decide_eq_true h'⟩

/-- the other hypotheses of the partial theorems for this solution -/
example : smS.Fits smT.n smT.nBackward smShocks.c ∧ 1 < smT.nBackward ∧ 1 < smShocks.c ∧
    smGy.c = smT.nBackward ∧ smGu.c = smShocks.c ∧ 0 < smShocks.r ∧ smInit.length = smYs.length := by
  refine ⟨⟨⟨rfl, rfl⟩, ⟨rfl, rfl⟩, ⟨rfl, rfl⟩⟩, by decide, by decide, rfl, rfl, by decide, rfl⟩

/-- **C74, what does hold** (partial: several states and several shocks).  Such a solution can be
simulated at second order, for every positive number of periods. -/
theorem C74_simulated_partial (half : V) (t : Typer) (hp : t.drOrder.Perm (List.range t.n)) (gy gu : Arr V)
    (s : Second V) (ys init : List V) (shocks : Arr V) (hr : 0 < shocks.r) (hl : init.length = ys.length)
    (hy : gy.c = t.nBackward) (hu : gu.c = shocks.c) (hf : s.Fits t.n t.nBackward shocks.c)
    (h1 : 1 < t.nBackward) (h2 : 1 < shocks.c) :
    ∃ p, simulateSecond half t gy gu s ys shocks init = .ok p := by
  obtain ⟨o1, o2, o3⟩ := drState_length hp
  have step : ∀ k, ∃ row, pathSecond t gy gu (s.used half) ys shocks (fun c => init[c]?.getD 0) k =
      .ok row := by
    intro k
    induction k with
    | zero => exact ⟨_, rfl⟩
    | succ k ih =>
      obtain ⟨prev, hprev⟩ := ih
      obtain ⟨row, hrow, -⟩ := stepSecond_ok half t o3 gy gu s ys
        (t.drState.map fun c => prev c - ys[c]?.getD 0) ((List.range shocks.c).map fun j => shocks.e k j)
        (by rw [List.length_map, List.length_map, List.length_range, o1, o2]; exact hf)
        (by rw [List.length_map]; omega) (by rw [List.length_map, List.length_range]; omega)
      refine ⟨row, ?_⟩
      rw [pathSecond, bind_ok_of_eq _ hprev]
      exact hrow
  unfold simulateSecond
  rw [if_neg (by omega), if_neg (by omega), if_neg]
  · obtain ⟨row, hrow⟩ := step (shocks.r - 1)
    rw [bind_ok_of_eq _ hrow]
    exact ⟨_, rfl⟩
  · rintro ⟨-, h⟩
    exact h ⟨by omega, hu⟩

/-- **C74 is false.** A second-order solution of two or more variables with a single state or a single
shock cannot be simulated for more than one period: whatever the numbers, `ValueError`. -/
theorem C74_false (half : V) (t : Typer) (hp : t.drOrder.Perm (List.range t.n)) (gy gu : Arr V)
    (s : Second V) (ys init : List V) (shocks : Arr V) (hr : 1 < shocks.r) (hl : init.length = ys.length)
    (hf : s.Fits t.n t.nBackward shocks.c) (hn : t.n ≠ 1) (h1 : t.nBackward = 1 ∨ shocks.c = 1) :
    simulateSecond half t gy gu s ys shocks init = .error .valueError := by
  obtain ⟨o1, o2, o3⟩ := drState_length hp
  obtain ⟨⟨f1, f2⟩, ⟨f3, f4⟩, f5, f6⟩ := hf
  -- the first step fails
  have two : ∀ (a : Arr V) (x y : List V), a.c = 1 → x.length = 1 → y.length = 1 →
      ∃ z, matrixKroneckerVec a x y = .ok (.two z) := by
    intro a x y ha hx hy
    obtain ⟨x0, rfl⟩ := List.length_eq_one_iff.mp hx
    obtain ⟨y0, rfl⟩ := List.length_eq_one_iff.mp hy
    obtain ⟨z, hz, -⟩ := C68_single_is_column a x0 y0 ha
    exact ⟨z, hz⟩
  have kinds : ∀ (a : Arr V) (x y : List V), a.c = x.length * y.length →
      (∃ z, matrixKroneckerVec a x y = .ok (.two z)) ∨ ∃ v, matrixKroneckerVec a x y = .ok (.one v) := by
    intro a x y hc
    by_cases h : a.c = 1
    · rw [hc] at h
      exact .inl (two a x y (by omega) (Nat.eq_one_of_mul_eq_one_right h) (Nat.eq_one_of_mul_eq_one_left h))
    · obtain ⟨v, hv, -⟩ := C68_bilinear_partial a x y hc h
      exact .inr ⟨v, hv⟩
  have fails : ∀ yhat u : List V, yhat.length = t.nBackward → u.length = shocks.c →
      stepSecond t gy gu (s.used half) ys yhat u = .error .valueError := by
    intro yhat u hy hu
    unfold stepSecond
    simp only
    have hterm : ∀ z : Arr V, termOf t.drOrder.length (.two z) = .error .valueError := by
      intro z; unfold termOf; simp only; rw [if_neg (by omega)]
    have k1 := kinds (s.used half).ghxx yhat yhat
      (by rw [show (s.used half).ghxx.c = s.ghxx.c from rfl, f2, hy])
    have k2 := kinds (s.used half).ghuu u u
      (by rw [show (s.used half).ghuu.c = s.ghuu.c from rfl, f4, hu])
    have k3 := kinds (s.used half).ghxu yhat u
      (by rw [show (s.used half).ghxu.c = s.ghxu.c from rfl, f6, hy, hu])
    rcases h1 with h1 | h1
    · obtain ⟨z, hz⟩ := two (s.used half).ghxx yhat yhat
        (by rw [show (s.used half).ghxx.c = s.ghxx.c from rfl, f2, h1]) (by omega) (by omega)
      rw [bind_ok_of_eq _ hz]
      rcases k2 with ⟨v2, h2⟩ | ⟨v2, h2⟩ <;> rcases k3 with ⟨v3, h3⟩ | ⟨v3, h3⟩ <;>
        rw [bind_ok_of_eq _ h2, bind_ok_of_eq _ h3, hterm] <;> rfl
    · obtain ⟨z, hz⟩ := two (s.used half).ghuu u u
        (by rw [show (s.used half).ghuu.c = s.ghuu.c from rfl, f4, h1]) (by omega) (by omega)
      rcases k1 with ⟨v1, h1'⟩ | ⟨v1, h1'⟩ <;> rcases k3 with ⟨v3, h3⟩ | ⟨v3, h3⟩
      · rw [bind_ok_of_eq _ h1', bind_ok_of_eq _ hz, bind_ok_of_eq _ h3, hterm]; rfl
      · rw [bind_ok_of_eq _ h1', bind_ok_of_eq _ hz, bind_ok_of_eq _ h3, hterm]; rfl
      · rw [bind_ok_of_eq _ h1', bind_ok_of_eq _ hz, bind_ok_of_eq _ h3]
        show (termOf _ _ >>= _) = _
        rw [show termOf t.drOrder.length (Arr12.one v1) = .ok _ from rfl, hterm]; rfl
      · rw [bind_ok_of_eq _ h1', bind_ok_of_eq _ hz, bind_ok_of_eq _ h3]
        show (termOf _ _ >>= _) = _
        rw [show termOf t.drOrder.length (Arr12.one v1) = .ok _ from rfl, hterm]; rfl
  have path : ∀ k, pathSecond t gy gu (s.used half) ys shocks (fun c => init[c]?.getD 0) (k + 1) =
      .error .valueError := by
    intro k
    induction k with
    | zero =>
      rw [pathSecond, pathSecond]
      show stepSecond _ _ _ _ _ _ _ = _
      exact fails _ _ (by rw [List.length_map, o1]) (by rw [List.length_map, List.length_range])
    | succ k ih => rw [pathSecond, ih]; rfl
  unfold simulateSecond
  rw [if_neg (by omega), if_neg (by omega)]
  by_cases h2 : shocks.r > 1 ∧ ¬ (gy.c = t.drState.length ∧ gu.c = shocks.c)
  · rw [if_pos h2]
  · rw [if_neg h2]
    have := path (shocks.r - 2)
    rw [show shocks.r - 2 + 1 = shocks.r - 1 by omega] at this
    simp only
    rw [this]
    rfl

/-- a solution of two variables with two states and one shock meets the hypotheses -/
example : (⟨listArr [[1, 0, 0, 1], [0, 2, 2, 0]] 4, listArr [[0, 1], [1, 0]] 2, listArr [[4], [0]] 1,
      listArr [[1], [3]] 1⟩ : Second ℚ).Fits smT.n smT.nBackward 1 ∧ smT.n ≠ 1 ∧
    smT.drOrder.Perm (List.range smT.n) :=
  ⟨⟨⟨rfl, rfl⟩, ⟨rfl, rfl⟩, ⟨rfl, rfl⟩⟩, by decide, List.Perm.swap _ _ _⟩

/-! ### C75: first order, every number of variables and shocks -/

/-- **C75, what does hold** (partial: not one variable with several shocks).  A first-order solution of the
right shape can be simulated, for every positive number of periods. -/
theorem C75_simulated_partial (t : Typer) (hp : t.drOrder.Perm (List.range t.n)) (gy gu : Arr V)
    (ys init : List V) (shocks : Arr V) (hr : 0 < shocks.r) (hl : init.length = ys.length)
    (hn : 0 < t.n) (hb : 0 < t.nBackward) (hk : 0 < shocks.c)
    (hy : gy.r = t.n ∧ gy.c = t.nBackward) (hu : gu.r = t.n ∧ gu.c = shocks.c)
    (h1 : t.n ≠ 1 ∨ shocks.c = 1) :
    ∃ p, simulateFirst t gy gu ys shocks init = .ok p := by
  obtain ⟨o1, o2, o3⟩ := drState_length hp
  have hsq : gu.squeezed.tr.r = shocks.c ∧ gu.squeezed.tr.c = t.n := by
    unfold Arr.squeezed Arr.tr
    by_cases h : gu.r = 1
    · rw [if_pos h]; simp only; omega
    · rw [if_neg h]; simp only; omega
  have hdot : shocks.dot gu.squeezed.tr = .ok ⟨shocks.r, gu.squeezed.tr.c, fun i j =>
      sumTo shocks.c fun k => shocks.e i k * gu.squeezed.tr.e k j⟩ := by
    unfold Arr.dot; rw [if_pos hsq.1.symm]
  refine ⟨_, simulateFirst_succeeds hr hl hdot ?_ ?_ fun _ => ⟨by omega, by omega, by
    show gu.squeezed.tr.c = gy.r; omega⟩⟩
  · rw [hu.1, hu.2]; exact Nat.mul_ne_zero (by omega) (by omega)
  · rw [hy.1, hy.2]; exact Nat.mul_ne_zero (by omega) (by omega)

/-- **C75 is false.** A solution of one variable with several shocks cannot be simulated: whatever the
numbers, `ValueError`. -/
theorem C75_false (t : Typer) (gy gu : Arr V) (ys init : List V) (shocks : Arr V) (hr : 0 < shocks.r)
    (h1 : gu.r = 1) (hu : gu.c = shocks.c) (hk : shocks.c ≠ 1) :
    simulateFirst t gy gu ys shocks init = .error .valueError := by
  unfold simulateFirst
  rw [if_neg (by omega)]
  by_cases hl : init.length ≠ ys.length
  · rw [if_pos hl]
  · rw [if_neg hl]
    have : shocks.dot gu.squeezed.tr = .error .valueError := by
      unfold Arr.dot Arr.squeezed
      rw [if_pos h1, if_neg]
      intro h
      have h : shocks.c = gu.r := h
      omega
    rw [this]
    rfl

/-- one variable and two shocks: refused.  (A simple regression on two shocks.) -/
example : simulateFirst oneT (listArr [[1/2]] 1) (listArr [[1, 2]] 2) [0] (listArr [[1, 0], [0, 1]] 2) [0] =
    .error .valueError :=
  C75_false _ _ _ _ _ _ (by decide) rfl rfl (by decide)

/-- the solution above is simulated -/
example : ∃ p, simulateFirst smT smGy smGu smYs smShocks smInit = .ok p :=
  C75_simulated_partial smT (List.Perm.swap _ _ _) smGy smGu smYs smInit smShocks (by decide) rfl
    (by decide) (by decide) (by decide) ⟨rfl, rfl⟩ ⟨rfl, rfl⟩ (.inl (by decide))

/-! ### C54: covariance of the random shocks -/

/-- **C54.** Let `noise` be random `T × n` arrays on a finite probability space (weights `w`) with mean
zero and uncorrelated entries of variance one.  With an exact factorisation, the shocks used for the
simulation have mean zero, are uncorrelated across periods, and have in each period the model's
covariance matrix. -/
theorem C54_covariance {Ω : Type} [Fintype Ω] (w : Ω → V) (noise shocks : Ω → Arr V) (T n : Nat)
    (hshape : ∀ ω, (noise ω).r = T ∧ (noise ω).c = n)
    (hmean : ∀ k < T, ∀ i < n, ∑ ω, w ω * (noise ω).e k i = 0)
    (hvar : ∀ k < T, ∀ l < T, ∀ i < n, ∀ j < n,
      ∑ ω, w ω * ((noise ω).e k i * (noise ω).e l j) = if k = l ∧ i = j then 1 else 0)
    (chol : Chol V) (ex : CholExact chol) (sigma : Arr V) (hsig : sigma.r = n)
    (h : ∀ ω, simulShocks chol sigma (noise ω) = .ok (shocks ω)) :
    (∀ k < T, ∀ i < n, ∑ ω, w ω * (shocks ω).e k i = 0) ∧
    ∀ k < T, ∀ l < T, ∀ i < n, ∀ j < n,
      ∑ ω, w ω * ((shocks ω).e k i * (shocks ω).e l j) = if k = l then sigma.e i j else 0 := by
  cases hchol : chol sigma with
  | error e =>
    have hno : ∀ ω : Ω, False := by
      intro ω
      have := h ω
      unfold simulShocks at this
      rw [hchol] at this
      cases this
    have : IsEmpty Ω := ⟨hno⟩
    refine ⟨fun k hk i hi => by simp, ?_⟩
    intro k hk l hl i hi j hj
    have := hvar k hk k hk i hi i hi
    simp at this
    have triv : ∀ x : V, x = 0 := fun x => by rw [← mul_one x, ← this, mul_zero]
    rw [triv (if k = l then sigma.e i j else 0)]
    simp
  | ok u =>
    obtain ⟨u1, u2, u3, u4⟩ := ex sigma u hchol
    have hrow : ∀ ω, ∀ k i, (shocks ω).e k i = ∑ a ∈ Finset.range n, (noise ω).e k a * u.e a i := by
      intro ω k i
      have := h ω
      unfold simulShocks at this
      rw [hchol] at this
      obtain ⟨-, -, -, d⟩ := dot_entry this
      rw [d, sumTo_eq, (hshape ω).2]
    have hu : ∀ i < n, ∀ j < n, (∑ a ∈ Finset.range n, u.e a i * u.e a j) = sigma.e i j := by
      intro i hi j hj
      have := u4.2.2.2 i (by show i < u.c; omega) j (by omega)
      rw [sumTo_eq, show u.tr.c = n from by show u.r = n; omega] at this
      exact this
    constructor
    · intro k hk i hi
      simp only [hrow, Finset.mul_sum]
      rw [Finset.sum_comm]
      refine Finset.sum_eq_zero fun a ha => ?_
      have := hmean k hk a (Finset.mem_range.mp ha)
      simp only [← mul_assoc]
      rw [← Finset.sum_mul, this, zero_mul]
    · intro k hk l hl i hi j hj
      simp only [hrow]
      have expand : ∀ ω, w ω * ((∑ a ∈ Finset.range n, (noise ω).e k a * u.e a i) *
          ∑ b ∈ Finset.range n, (noise ω).e l b * u.e b j) = ∑ a ∈ Finset.range n,
          ∑ b ∈ Finset.range n, w ω * ((noise ω).e k a * u.e a i * ((noise ω).e l b * u.e b j)) := by
        intro ω
        rw [Finset.sum_mul_sum, Finset.mul_sum]
        exact Finset.sum_congr rfl fun a _ => Finset.mul_sum _ _ _
      rw [Finset.sum_congr rfl fun ω _ => expand ω]
      rw [Finset.sum_comm]
      have inner : ∀ a ∈ Finset.range n, (∑ ω, ∑ b ∈ Finset.range n,
          w ω * ((noise ω).e k a * u.e a i * ((noise ω).e l b * u.e b j))) =
          if k = l then u.e a i * u.e a j else 0 := by
        intro a ha
        rw [Finset.sum_comm]
        have inner2 : ∀ b ∈ Finset.range n, (∑ ω,
            w ω * ((noise ω).e k a * u.e a i * ((noise ω).e l b * u.e b j))) =
            (if k = l ∧ a = b then 1 else 0) * (u.e a i * u.e b j) := by
          intro b hb
          rw [← hvar k hk l hl a (Finset.mem_range.mp ha) b (Finset.mem_range.mp hb), Finset.sum_mul]
          exact Finset.sum_congr rfl fun ω _ => by ring
        rw [Finset.sum_congr rfl inner2]
        by_cases hkl : k = l
        · rw [if_pos hkl, Finset.sum_eq_single a]
          · rw [if_pos ⟨hkl, rfl⟩, one_mul]
          · intro b _ hb
            rw [if_neg (fun h => hb h.2.symm), zero_mul]
          · intro hn; exact absurd ha hn
        · rw [if_neg hkl]
          exact Finset.sum_eq_zero fun b _ => by rw [if_neg (fun h => hkl h.1), zero_mul]
      rw [Finset.sum_congr rfl inner]
      by_cases hkl : k = l
      · simp only [if_pos hkl]; exact hu i hi j hj
      · simp only [if_neg hkl]; exact Finset.sum_const_zero

/-- noise that is `1` or `-1` with probability one half, independently for two shocks in one period, and a
covariance matrix that is not diagonal -/
example : (∀ k < 1, ∀ i < 2, ∑ ω : Bool × Bool, (1/4 : ℚ) *
      (if i = 0 then (if ω.1 then 1 else -1) else (if ω.2 then 1 else -1)) = 0 * (k : ℚ)) ∧
    (∀ i < 2, ∀ j < 2, ∑ ω : Bool × Bool, (1/4 : ℚ) *
      ((if i = 0 then (if ω.1 then 1 else -1) else (if ω.2 then 1 else -1)) *
       (if j = 0 then (if ω.1 then 1 else -1) else (if ω.2 then 1 else -1))) = if i = j then 1 else 0) ∧
    CholExact smChol ∧ smSigma.r = 2 ∧ ∀ noise : Arr ℚ, noise.c = 2 →
      ∃ s, simulShocks smChol smSigma noise = .ok s := by
  refine ⟨?_, ?_, smChol_exact, rfl, ?_⟩
  · intro k _ i hi
    rw [zero_mul]
    interval_cases i <;> decide +kernel
  · intro i hi j hj
    interval_cases i <;> interval_cases j <;> decide +kernel
  · intro noise hc
    have : smChol smSigma = .ok smU := by unfold smChol; rw [if_pos (by decide +kernel)]
    unfold simulShocks
    rw [bind_ok_of_eq _ this]
    unfold Arr.dot
    rw [if_pos (show noise.c = smU.r from hc)]
    exact ⟨_, rfl⟩

/-! ### C55: impulse responses -/

theorem impulse_ok {chol : Chol V} {half : V} {t : Typer} {gy gu : Arr V} {ys : List V} {sigma p : Arr V}
    {periods idx : Nat} {size : V}
    (h : impulseResponse chol half t (.first gy gu) ys sigma periods idx size = .ok p) :
    ∃ u shocks q, chol sigma = .ok u ∧ 0 < periods ∧ idx < sigma.r ∧ sigma.r = u.r ∧
      shocks.r = periods ∧ shocks.c = u.c ∧
      (∀ j, shocks.e 0 j = size * u.e idx j) ∧ (∀ k j, shocks.e (k + 1) j = 0) ∧
      simulateFirst t gy gu ys shocks ys = .ok q ∧ p.r = q.r ∧ p.c = q.c ∧ ∀ k, dev ys q k = p.e k := by
  unfold impulseResponse at h
  obtain ⟨given, hg, h'⟩ := Except.bind_eq_ok h
  obtain ⟨q, hq, hpq⟩ := Except.bind_eq_ok h'
  unfold impulseShocks at hg
  by_cases h0 : periods = 0 ∨ sigma.r ≤ idx
  · rw [if_pos h0] at hg; cases hg
  rw [if_neg h0] at hg
  have := Except.ok.inj hg
  subst this
  unfold simulate at hq
  obtain ⟨shocks, hs, hq⟩ := Except.bind_eq_ok hq
  unfold simulShocks at hs
  obtain ⟨u, hu, hs⟩ := Except.bind_eq_ok hs
  obtain ⟨d1, d2, d3, d4⟩ := dot_entry hs
  have := Except.ok.inj hpq
  subst this
  refine ⟨u, shocks, q, hu, by omega, by omega, d1, d2, d3, ?_, ?_, hq, rfl, rfl, fun k => rfl⟩
  · intro j
    rw [d4, sumTo_eq]
    simp only
    rw [Finset.sum_eq_single idx]
    · simp
    · intro b _ hb; simp [hb]
    · intro hn; exact absurd (Finset.mem_range.mpr (by show idx < sigma.r; omega)) hn
  · intro k j
    rw [d4, sumTo_eq]
    simp

/-- **C55 is false as stated: the response starts one period late.** The first row of every impulse
response is zero; the shock has its effect in the second row only. -/
theorem C55_first_row_zero (chol : Chol V) (half : V) (t : Typer) (gy gu : Arr V) (ys : List V)
    (sigma p : Arr V) (periods idx : Nat) (size : V)
    (h : impulseResponse chol half t (.first gy gu) ys sigma periods idx size = .ok p) :
    p.r = periods ∧ ∀ c, p.e 0 c = 0 := by
  obtain ⟨u, shocks, q, -, -, -, -, s1, -, -, -, hq, p1, -, hdev⟩ := impulse_ok h
  obtain ⟨innovs, -, -, -, -, -, -, rfl⟩ := simulateFirst_ok hq
  refine ⟨by rw [p1]; exact s1, ?_⟩
  intro c
  rw [← hdev 0]
  simp [dev, devFirst]

/-- **C55, what does hold** (partial: with the response moved by one period, and the shock given by a row of
the factor of the covariance matrix, so that other shocks move along).  The second row is the impact
response: the policy functions applied to no deviation and `size` times row `idx` of the factor.  From
then on the policy functions are applied without shocks. -/
theorem C55_response_partial (chol : Chol V) (half : V) (t : Typer)
    (hp : t.drOrder.Perm (List.range t.n)) (gy gu : Arr V) (ys : List V) (sigma p : Arr V)
    (periods idx : Nat) (size : V) (hs : gu.r ≠ 1 ∨ gu.c = 1)
    (h : impulseResponse chol half t (.first gy gu) ys sigma periods idx size = .ok p) :
    ∃ u, chol sigma = .ok u ∧
      (1 < periods → FollowsPolicy t u.c gy gu (fun _ => 0) (fun j => size * u.e idx j) (p.e 1)) ∧
      ∀ k, k + 2 < periods → FollowsPolicy t u.c gy gu (p.e (k + 1)) (fun _ => 0) (p.e (k + 2)) := by
  have hz := (C55_first_row_zero chol half t gy gu ys sigma p periods idx size h).2
  obtain ⟨u, shocks, q, hu, -, -, -, s1, s2, s3, s4, hq, p1, -, hdev⟩ := impulse_ok h
  have hr := (C49_first_row t gy gu ys ys shocks q hq).1
  have hf := C49_follows_policy t hp gy gu ys ys shocks q hs hq
  refine ⟨u, hu, ?_, ?_⟩
  · intro hp1
    have := hf 0 (by omega)
    rw [hdev, hdev, s2, show p.e 0 = fun _ => 0 from funext hz,
      show (fun j => shocks.e 0 j) = fun j => size * u.e idx j from funext s3] at this
    exact this
  · intro k hk
    have := hf (k + 1) (by omega)
    rw [hdev, hdev, s2, show (fun j => shocks.e (k + 1) j) = fun _ => 0 from funext (s4 k)] at this
    exact this

/-- **C55, scaling.** The response to a shock of `a` times the size is `a` times the response. -/
theorem C55_scales (chol : Chol V) (half : V) (t : Typer) (gy gu : Arr V) (ys : List V) (sigma p : Arr V)
    (periods idx : Nat) (size a : V)
    (h : impulseResponse chol half t (.first gy gu) ys sigma periods idx size = .ok p) :
    ∃ p', impulseResponse chol half t (.first gy gu) ys sigma periods idx (a * size) = .ok p' ∧
      p'.r = p.r ∧ p'.c = p.c ∧ ∀ k < p.r, ∀ c, p'.e k c = a * p.e k c := by
  obtain ⟨u, shocks, q, hu, h0, hidx, hur, s1, s2, s3, s4, hq, p1, p2, hdev⟩ := impulse_ok h
  have hr := (C49_first_row t gy gu ys ys shocks q hq).1
  -- the array of shocks for the other size
  have hs' : simulShocks chol sigma ⟨periods, sigma.r, fun k j => if k = 0 ∧ j = idx then a * size else 0⟩ =
      .ok ⟨periods, u.c, fun k j => sumTo sigma.r fun l =>
        (if k = 0 ∧ l = idx then a * size else 0) * u.e l j⟩ := by
    unfold simulShocks
    rw [bind_ok_of_eq _ hu]
    unfold Arr.dot
    rw [if_pos hur]
  obtain ⟨q', hq', r', c', hlin⟩ := C50_superposition t gy gu ys ys ys ys shocks shocks
    ⟨periods, u.c, fun k j => sumTo sigma.r fun l => (if k = 0 ∧ l = idx then a * size else 0) * u.e l j⟩
    q q a 0 hq hq ⟨rfl, s1.symm⟩ ⟨rfl, s2.symm⟩ (by
      intro k _ j _
      simp only [sumTo_eq, zero_mul, add_zero]
      cases k with
      | zero =>
        rw [s3, Finset.sum_eq_single idx]
        · simp [mul_assoc]
        · intro b _ hb; simp [hb]
        · intro hn; exact absurd (Finset.mem_range.mpr hidx) hn
      | succ k => rw [s4]; simp) rfl (fun c _ => by simp)
  refine ⟨⟨q'.r, q'.c, fun k c => q'.e k c - ys[c]?.getD 0⟩, ?_, by show q'.r = p.r; omega,
    by show q'.c = p.c; omega, ?_⟩
  · unfold impulseResponse impulseShocks
    rw [if_neg (by omega)]
    show (simulate _ _ _ _ _ _ _ _ >>= _) = _
    unfold simulate
    rw [hs']
    show (simulateFirst _ _ _ _ _ _ >>= _) = _
    rw [show (none : Option (List V)).getD ys = ys from rfl, hq']
    rfl
  · intro k hk c
    have := hlin k (by omega) c
    rw [hdev k, zero_mul, add_zero] at this
    exact this

/-- the response to the second shock in the model above: nothing, then the impact, then its echo -/
theorem C55_impact_late : ∃ p, impulseResponse smChol (1/2) smT (.first smGy smGu) smYs smSigma 3 1 1 =
    .ok p ∧ p.e 0 0 = 0 ∧ p.e 0 1 = 0 ∧ p.e 1 0 = 3 ∧ p.e 2 0 = 3/4 ∧ p.e 2 1 = 3 := by
  obtain ⟨p, h, h'⟩ := ok_of_check
    (x := impulseResponse smChol (1/2) smT (.first smGy smGu) smYs smSigma 3 1 1)
    (p := fun p => decide (p.e 0 0 = 0 ∧ p.e 0 1 = 0 ∧ p.e 1 0 = 3 ∧ p.e 2 0 = 3/4 ∧ p.e 2 1 = 3))
    (by decide +kernel)
  exact ⟨p, h, of_decide_eq_true h'⟩

/-! ### C56: dropping -/

/-- **C56.** Dropping `d` periods returns the rows from `d` on, for every `d` from zero to the number of
periods, and raises `ValueError` otherwise. -/
theorem C56_drop (paths : Arr V) (d : Int) :
    (∀ k : Nat, d = k → k ≤ paths.r → ∃ q, dropPaths paths d = .ok q ∧ q.r + k = paths.r ∧ q.c = paths.c ∧
      ∀ i c, q.e i c = paths.e (i + k) c) ∧
    ((d < 0 ∨ paths.r < d) → dropPaths paths d = .error .valueError) := by
  constructor
  · rintro k rfl hk
    refine ⟨⟨paths.r - k, paths.c, fun i c => paths.e (i + k) c⟩, ?_, by simp only; omega, rfl,
      fun _ _ => rfl⟩
    unfold dropPaths
    rw [if_neg (by omega), if_neg (by omega)]
    rfl
  · intro h
    unfold dropPaths
    by_cases h0 : d < 0
    · rw [if_pos h0]
    · rw [if_neg h0, if_pos (by omega)]

/-- all three cases -/
example : (∃ q, dropPaths smShocks 1 = .ok q ∧ q.r = 2 ∧ q.e 0 1 = -1) ∧
    dropPaths smShocks 4 = .error .valueError ∧ dropPaths smShocks (-1) = .error .valueError :=
  ⟨⟨_, rfl, rfl, rfl⟩, rfl, rfl⟩

#print axioms C49_first_row
#print axioms C49_follows_policy
#print axioms C46_simulated_partial
#print axioms C50_superposition
#print axioms C51_rest_point
#print axioms C52_causal_first
#print axioms C52_causal_second
#print axioms C52_last_shock_unused
#print axioms C53_step_partial
#print axioms C53_false
#print axioms C74_simulated_partial
#print axioms C74_false
#print axioms C75_simulated_partial
#print axioms C75_false
#print axioms C54_covariance
#print axioms C55_first_row_zero
#print axioms C55_response_partial
#print axioms C55_scales
#print axioms C55_impact_late
#print axioms C56_drop

end Pynare
