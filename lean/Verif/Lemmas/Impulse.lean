import Verif.Lemmas.Simul
import Verif.Model.Impulse
import Mathlib.Algebra.BigOperators.Ring.Finset
import Mathlib.Algebra.BigOperators.Intervals
/-!
# Lemmas about impulse responses
-/

namespace Pynare

set_option linter.unusedSectionVars false

variable {V : Type} [CommRing V]

/-- what one unit of shock number `l` adds to the variables, in decision-rule order -/
def respRow (u gu : Arr V) (l i : Nat) : V := sumTo u.c fun j => u.e l j * gu.squeezed.tr.e j i

theorem sumTo_swap (n m : Nat) (f : Nat → Nat → V) :
    (sumTo n fun i => sumTo m fun j => f i j) = sumTo m fun j => sumTo n fun i => f i j := by
  simp only [sumTo_eq]
  exact Finset.sum_comm

theorem innov_resp {given u shocks innovs gu : Arr V} (h1 : given.dot u = .ok shocks)
    (h2 : shocks.dot gu.squeezed.tr = .ok innovs) (k i : Nat) :
    innovs.e k i = sumTo given.c fun l => given.e k l * respRow u gu l i := by
  obtain ⟨a1, a2, a3, a4⟩ := dot_entry h1
  obtain ⟨b1, b2, b3, b4⟩ := dot_entry h2
  rw [b4, a3]
  simp only [a4, respRow]
  simp only [sumTo_eq, Finset.sum_mul, Finset.mul_sum]
  rw [Finset.sum_comm]
  exact Finset.sum_congr rfl fun l _ => Finset.sum_congr rfl fun j _ => by ring

/-- what a simulation of a first-order solution went through -/
theorem simulate_first_ok {chol : Chol V} {half : V} {t : Typer} {gy gu : Arr V} {ys : List V} {sigma given p : Arr V}
    {init : Option (List V)} (h : simulate chol half t (.first gy gu) ys sigma given init = .ok p) :
    ∃ u, chol sigma = .ok u ∧ given.c = u.r ∧ u.c = gu.squeezed.c ∧ 0 < given.r ∧ (init.getD ys).length = ys.length ∧
      (1 < given.r → gy.c = t.drState.length ∧ gy.r = t.drOrder.length ∧ gu.squeezed.r = gy.r) ∧
      gu.r * gu.c ≠ 0 ∧ gy.r * gy.c ≠ 0 ∧
      p = ⟨given.r, ys.length, fun k c => devFirst t gy (fun k i => sumTo given.c fun l => given.e k l * respRow u gu l i)
        (fun c => (init.getD ys)[c]?.getD 0 - ys[c]?.getD 0) k c + ys[c]?.getD 0⟩ := by
  unfold simulate at h
  obtain ⟨shocks, hs, h⟩ := Except.bind_eq_ok h
  unfold simulShocks at hs
  obtain ⟨u, hu, hs⟩ := Except.bind_eq_ok hs
  obtain ⟨a1, a2, a3, a4⟩ := dot_entry hs
  obtain ⟨innovs, hi, r0, l0, d0, g1, g2, rfl⟩ := simulateFirst_ok h
  obtain ⟨b1, b2, b3, b4⟩ := dot_entry hi
  have e : innovs.e = fun k i => sumTo given.c fun l => given.e k l * respRow u gu l i := by
    funext k i
    exact innov_resp hs hi k i
  refine ⟨u, hu, a1, a3.symm.trans b1, a2 ▸ r0, l0, fun h1 => ?_, g1, g2, ?_⟩
  · obtain ⟨x, y, z⟩ := d0 (by omega)
    exact ⟨x, y, by rw [← z, b3]; rfl⟩
  · rw [e, a2]

/-- when a simulation of a first-order solution succeeds -/
theorem simulate_first_succeeds {chol : Chol V} {half : V} {t : Typer} {gy gu : Arr V} {ys : List V} {sigma given u : Arr V}
    {init : Option (List V)} (hu : chol sigma = .ok u) (h1 : given.c = u.r) (h2 : u.c = gu.squeezed.c) (h3 : 0 < given.r)
    (h4 : (init.getD ys).length = ys.length)
    (h5 : 1 < given.r → gy.c = t.drState.length ∧ gy.r = t.drOrder.length ∧ gu.squeezed.r = gy.r)
    (h6 : gu.r * gu.c ≠ 0) (h7 : gy.r * gy.c ≠ 0) :
    simulate chol half t (.first gy gu) ys sigma given init =
      .ok ⟨given.r, ys.length, fun k c => devFirst t gy (fun k i => sumTo given.c fun l => given.e k l * respRow u gu l i)
        (fun c => (init.getD ys)[c]?.getD 0 - ys[c]?.getD 0) k c + ys[c]?.getD 0⟩ := by
  have hs : given.dot u = .ok ⟨given.r, u.c, fun i j => sumTo given.c fun k => given.e i k * u.e k j⟩ := by
    unfold Arr.dot; rw [if_pos h1]
  have hi : (⟨given.r, u.c, fun i j => sumTo given.c fun k => given.e i k * u.e k j⟩ : Arr V).dot gu.squeezed.tr =
      .ok ⟨given.r, gu.squeezed.tr.c, fun i j => sumTo u.c fun k =>
        (sumTo given.c fun l => given.e i l * u.e l k) * gu.squeezed.tr.e k j⟩ := by
    unfold Arr.dot; exact if_pos h2
  have e := innov_resp hs hi
  have := simulateFirst_succeeds (t := t) (gy := gy) (ys := ys) (init := init.getD ys)
    (shocks := ⟨given.r, u.c, fun i j => sumTo given.c fun k => given.e i k * u.e k j⟩) h3 h4 hi h6 h7 (fun h => by
    obtain ⟨x, y, z⟩ := h5 h
    exact ⟨x, y, z⟩)
  unfold simulate simulShocks
  rw [hu]
  show ((given.dot u).bind fun shocks => simulateFirst t gy gu ys shocks (init.getD ys)) = _
  rw [hs]
  refine this.trans ?_
  congr 2
  funext k c
  congr 2
  funext k i
  exact e k i

/-- the deviations are linear in the innovations -/
theorem devFirst_zero (t : Typer) (gy : Arr V) (innov : Nat → Nat → V) (T : Nat)
    (h : ∀ k, k + 1 < T → ∀ j, innov k j = 0) (k : Nat) (hk : k < T) (c : Nat) :
    devFirst t gy innov (fun _ => 0) k c = 0 := by
  have := devFirst_linear t gy innov innov innov (fun _ => 0) (fun _ => 0) (fun _ => 0) 0 0 T
    (fun k hk j _ => by rw [h k hk j]; ring) (fun _ => by ring) k hk c
  rw [this]; ring

theorem devFirst_sum {ι : Type} [DecidableEq ι] (t : Typer) (gy : Arr V) (T : Nat) (w : ι → V) (I : ι → Nat → Nat → V) (s : Finset ι) :
    ∀ innov : Nat → Nat → V, (∀ k, k + 1 < T → ∀ j, innov k j = ∑ i ∈ s, w i * I i k j) → ∀ k < T, ∀ c,
      devFirst t gy innov (fun _ => 0) k c = ∑ i ∈ s, w i * devFirst t gy (I i) (fun _ => 0) k c := by
  induction s using Finset.induction_on with
  | empty =>
    intro innov h k hk c
    rw [Finset.sum_empty]
    exact devFirst_zero t gy innov T (fun k hk j => by rw [h k hk j, Finset.sum_empty]) k hk c
  | insert a s ha ih =>
    intro innov h k hk c
    rw [Finset.sum_insert ha, ← ih (fun k j => ∑ i ∈ s, w i * I i k j) (fun _ _ _ => rfl) k hk c]
    have := devFirst_linear t gy innov (I a) (fun k j => ∑ i ∈ s, w i * I i k j) (fun _ => 0) (fun _ => 0) (fun _ => 0)
      (w a) 1 T (fun k hk j _ => by rw [h k hk j, Finset.sum_insert ha, one_mul]) (fun _ => by ring) k hk c
    rw [this, one_mul]

/-- from other initial values -/
theorem devFirst_init (t : Typer) (gy : Arr V) (innov : Nat → Nat → V) (d : Nat → V) (k c : Nat) :
    devFirst t gy innov d k c = devFirst t gy (fun _ _ => 0) d k c + devFirst t gy innov (fun _ => 0) k c := by
  have := devFirst_linear t gy innov (fun _ _ => 0) innov d d (fun _ => 0) 1 1 (k + 1)
    (fun _ _ _ _ => by ring) (fun _ => by ring) k (by omega) c
  rw [this, one_mul, one_mul]

/-- an innovation in period `s` is felt from the next period on, as one in the first period is -/
theorem devFirst_shift (t : Typer) (gy : Arr V) (r : Nat → V) (s : Nat) : ∀ m c,
    devFirst t gy (fun k j => if k = s then r j else 0) (fun _ => 0) (s + m) c =
      devFirst t gy (fun k j => if k = 0 then r j else 0) (fun _ => 0) m c
  | 0, c => by
    show _ = (0 : V)
    refine devFirst_zero t gy _ (s + 1) (fun k hk j => if_neg (by omega)) (s + 0) (by omega) c
  | m + 1, c => by
    rw [show s + (m + 1) = (s + m) + 1 from rfl, devFirst, devFirst,
      show devFirst t gy (fun k j => if k = s then r j else 0) (fun _ => 0) (s + m) =
        devFirst t gy (fun k j => if k = 0 then r j else 0) (fun _ => 0) m from funext (devFirst_shift t gy r s m)]
    congr 2
    funext j
    by_cases h : m = 0
    · subst h; rw [if_pos (Nat.add_zero s), if_pos rfl]
    · rw [if_neg (by omega), if_neg h]

/-- the response to one unit of shock number `l` -/
def unitDev (t : Typer) (gy gu u : Arr V) (l : Nat) : Nat → Nat → V :=
  devFirst t gy (fun k j => if k = 0 then respRow u gu l j else 0) fun _ => 0

/-- **moving averages**: the deviations are those without shocks and the sum of the responses to all shocks so far -/
theorem devFirst_average (t : Typer) (gy gu u given : Arr V) (d : Nat → V) (k c : Nat) :
    devFirst t gy (fun k i => sumTo given.c fun l => given.e k l * respRow u gu l i) d k c =
      devFirst t gy (fun _ _ => 0) d k c +
        sumTo k fun s => sumTo given.c fun l => given.e s l * unitDev t gy gu u l (k - s) c := by
  rw [devFirst_init]
  congr 1
  have := devFirst_sum t gy (k + 1) (fun q : Nat × Nat => given.e q.1 q.2)
    (fun q k j => if k = q.1 then respRow u gu q.2 j else 0) (Finset.range k ×ˢ Finset.range given.c)
    (fun k i => sumTo given.c fun l => given.e k l * respRow u gu l i) (fun s hs j => by
      rw [Finset.sum_product, Finset.sum_eq_single s, sumTo_eq]
      · exact Finset.sum_congr rfl fun l _ => by rw [if_pos rfl]
      · intro b _ hb
        exact Finset.sum_eq_zero fun l _ => by rw [if_neg (Ne.symm hb), mul_zero]
      · intro h
        exact absurd (Finset.mem_range.mpr (by omega)) h) k (by omega) c
  rw [this, Finset.sum_product, sumTo_eq]
  refine Finset.sum_congr rfl fun s hs => ?_
  rw [sumTo_eq]
  refine Finset.sum_congr rfl fun l _ => ?_
  have hs := Finset.mem_range.mp hs
  congr 1
  rw [unitDev, ← devFirst_shift t gy (respRow u gu l) s (k - s) c, show s + (k - s) = k by omega]

/-- the response computed for shocks at the given positions -/
theorem impulse_at {chol : Chol V} {half : V} {t : Typer} {gy gu : Arr V} {ys : List V} {sigma p : Arr V}
    {stoch : List String} {exog : ImpulseArg} {periods : Nat} {size : V}
    (h : impulseNamed chol half t (.first gy gu) ys sigma stoch exog periods size = .ok p) :
    ∃ idx u, exog.index stoch = .ok idx ∧ chol sigma = .ok u ∧ stoch.length = u.r ∧ u.c = gu.squeezed.c ∧ 0 < periods ∧
      (∀ i ∈ idx, i < stoch.length) ∧
      (1 < periods → gy.c = t.drState.length ∧ gy.r = t.drOrder.length ∧ gu.squeezed.r = gy.r) ∧
      gu.r * gu.c ≠ 0 ∧ gy.r * gy.c ≠ 0 ∧ p.r = periods ∧ p.c = ys.length ∧
      ∀ k c, p.e k c = sumTo stoch.length fun l => if l ∈ idx then size * unitDev t gy gu u l k c else 0 := by
  unfold impulseNamed at h
  obtain ⟨idx, hidx, h'⟩ := Except.bind_eq_ok h
  obtain ⟨given, hg, h''⟩ := Except.bind_eq_ok h'
  obtain ⟨q, hq, hp⟩ := Except.bind_eq_ok h''
  clear h h' h''
  unfold impulseShocksAt at hg
  by_cases h0 : periods = 0 ∨ idx.any (stoch.length ≤ ·)
  · rw [if_pos h0] at hg; cases hg
  rw [if_neg h0] at hg
  have := Except.ok.inj hg
  subst this
  have hp := Except.ok.inj hp
  subst hp
  obtain ⟨u, hu, h1, h2, h3, h4, h5, h6, h7, rfl⟩ := simulate_first_ok hq
  refine ⟨idx, u, hidx, hu, h1, h2, h3, fun i hi => ?_, h5, h6, h7, rfl, rfl, fun k c => ?_⟩
  · by_contra hlt
    exact h0 (Or.inr (List.any_eq_true.mpr ⟨i, hi, by simpa using hlt⟩))
  · show devFirst t gy _ (fun c => ys[c]?.getD 0 - ys[c]?.getD 0) k c + ys[c]?.getD 0 - ys[c]?.getD 0 = _
    rw [add_sub_cancel_right, show (fun c : Nat => ys[c]?.getD 0 - ys[c]?.getD 0) = fun _ => (0 : V) from
      funext fun c => sub_self _]
    have e := devFirst_average t gy gu u (⟨periods, stoch.length, fun k j => if k = 0 ∧ j ∈ idx then size else 0⟩ : Arr V)
      (fun _ => 0) k c
    refine e.trans ?_
    rw [devFirst_zero t gy _ (k + 1) (fun _ _ _ => rfl) k (by omega), zero_add]
    cases k with
    | zero =>
      symm
      rw [sumTo_eq]
      refine Finset.sum_eq_zero fun l _ => ?_
      split
      · show size * (0 : V) = 0
        rw [mul_zero]
      · rfl
    | succ k =>
      rw [sumTo_eq (k + 1), Finset.sum_eq_single 0]
      · refine sumTo_congr fun l _ => ?_
        show (if 0 = 0 ∧ l ∈ idx then size else 0) * _ = _
        by_cases hl : l ∈ idx
        · rw [if_pos ⟨rfl, hl⟩, if_pos hl, Nat.sub_zero]
        · rw [if_neg (fun x => hl x.2), if_neg hl, zero_mul]
      · intro s _ hs
        rw [sumTo_eq]
        refine Finset.sum_eq_zero fun l _ => ?_
        show (if s = 0 ∧ l ∈ idx then size else 0) * _ = _
        rw [if_neg (fun x => hs x.1), zero_mul]
      · intro h
        exact absurd (Finset.mem_range.mpr (by omega)) h

/-- when the response to shocks at the given positions can be computed -/
theorem impulse_succeeds {chol : Chol V} {half : V} {t : Typer} {gy gu : Arr V} {ys : List V} {sigma u : Arr V}
    {stoch : List String} {exog : ImpulseArg} {periods : Nat} {size : V} {idx : List Nat}
    (h0 : exog.index stoch = .ok idx) (hu : chol sigma = .ok u) (h1 : stoch.length = u.r) (h2 : u.c = gu.squeezed.c)
    (h3 : 0 < periods) (h4 : ∀ i ∈ idx, i < stoch.length)
    (h5 : 1 < periods → gy.c = t.drState.length ∧ gy.r = t.drOrder.length ∧ gu.squeezed.r = gy.r)
    (h6 : gu.r * gu.c ≠ 0) (h7 : gy.r * gy.c ≠ 0) :
    ∃ p, impulseNamed chol half t (.first gy gu) ys sigma stoch exog periods size = .ok p := by
  have hs : impulseShocksAt periods stoch.length idx size =
      .ok ⟨periods, stoch.length, fun k j => if k = 0 ∧ j ∈ idx then size else 0⟩ := by
    unfold impulseShocksAt
    rw [if_neg]
    rintro (h | h)
    · omega
    · obtain ⟨i, hi, h⟩ := List.any_eq_true.mp h
      have := h4 i hi
      have h : stoch.length ≤ i := by simpa using h
      omega
  unfold impulseNamed
  rw [bind_ok_of_eq _ h0, bind_ok_of_eq _ hs,
    bind_ok_of_eq _ (simulate_first_succeeds (init := none) hu h1 h2 h3 rfl h5 h6 h7)]
  exact ⟨_, rfl⟩

end Pynare
