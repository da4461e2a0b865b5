import Verif.Spec.Linear
import Verif.Lemmas.Exprs
import Verif.Lemmas.SecondMain
import Verif.Lemmas.Stats
import Mathlib.Algebra.Order.BigOperators.Group.Finset
import Mathlib.Algebra.Order.BigOperators.Ring.Finset
import Mathlib.Tactic.Linarith
/-!
# Lemmas about derivatives and approximate solutions
-/

namespace Pynare

variable {V : Type}

set_option linter.unusedSectionVars false

/-! ### the linearised equation as one sum -/

section flat
variable [CommRing V]

theorem rowPart_sum (t : Typer) (J : Arr V) (i r : Nat) (y : Nat → V) :
    rowPart t J i r y =
      (((t.sel fun c => t.has r c).map fun c => (r, c)).map fun p =>
        J.e i ((t.cell p.1 p.2).getD 0) * y p.2).sum := by
  unfold rowPart Typer.sel
  have : ∀ n, (sumTo n fun c => match t.cell r c with
      | some k => J.e i k * y c
      | none => 0) = ((((List.range n).filter fun c => t.has r c).map fun c => (r, c)).map fun p =>
        J.e i ((t.cell p.1 p.2).getD 0) * y p.2).sum := by
    intro n
    induction n with
    | zero => rfl
    | succ n ih =>
      rw [sumTo, ih, List.range_succ, List.filter_append, List.map_append, List.map_append, List.sum_append]
      congr 1
      cases hc : t.cell r n with
      | none => simp [Typer.has, hc]
      | some k => simp [Typer.has, hc]
  exact this t.n

/-- the numbers of the flat vector of deviations -/
structure Flat (t : Llx) (nExog : Nat) (d : Around V) (D : Nat → V) : Prop where
  before : ∀ c k, t.cell 0 c = some k → D k = d.before c
  now : ∀ c k, t.cell 1 c = some k → D k = d.now c
  after : ∀ c k, t.cell 2 c = some k → D k = d.after c
  shock : ∀ j < nExog, D (t.count + j) = d.shock j

theorem linearised_flat {pss : List (List Int)} {t : Llx} (h : buildLlx pss = .ok t) {nExog : Nat} {d : Around V}
    {D : Nat → V} (hD : Flat t nExog d D) (J : Arr V) (i : Nat) :
    linearised t nExog J i d.before d.now d.after d.shock =
      sumTo (t.count + nExog) fun k => J.e i k * D k := by
  have hn := places_numbers h
  have hsplit : (sumTo (t.count + nExog) fun k => J.e i k * D k) =
      (sumTo t.count fun k => J.e i k * D k) + sumTo nExog fun k => J.e i (t.count + k) * D (t.count + k) := by
    rw [sumTo_eq, sumTo_eq, sumTo_eq, Finset.sum_range_add]
  have hsum : (sumTo t.count fun k => J.e i k * D k) =
      (t.places.map fun p => J.e i ((t.cell p.1 p.2).getD 0) * D ((t.cell p.1 p.2).getD 0)).sum := by
    have h1 : ∀ n, (sumTo n fun k => J.e i k * D k) = ((List.range n).map fun k => J.e i k * D k).sum := by
      intro n
      induction n with
      | zero => rfl
      | succ n ih => rw [sumTo, ih, List.range_succ, List.map_append, List.sum_append]; simp
    have h2 := congrArg (List.map fun o : Option Nat => J.e i (o.getD 0) * D (o.getD 0)) hn
    rw [List.map_map, List.map_map] at h2
    rw [h1]
    exact congrArg List.sum h2.symm
  have hpart : ∀ (r : Nat) (y : Nat → V), (∀ c k, t.cell r c = some k → D k = y c) →
      rowPart t.toTyper J i r y = (((t.sel fun c => t.has r c).map fun c => (r, c)).map fun p =>
        J.e i ((t.cell p.1 p.2).getD 0) * D ((t.cell p.1 p.2).getD 0)).sum := by
    intro r y hy
    rw [rowPart_sum]
    congr 1
    refine List.map_congr_left fun p hp => ?_
    obtain ⟨c, hc, rfl⟩ := List.mem_map.mp hp
    obtain ⟨k, hk⟩ := Option.isSome_iff_exists.mp ((List.mem_filter.mp hc).2 : (t.cell r c).isSome = true)
    simp only [hk, Option.getD_some]
    rw [hy c k hk]
  unfold linearised
  rw [hsplit, hsum, hpart 0 _ hD.before, hpart 1 _ hD.now, hpart 2 _ hD.after]
  have h3 : t.places = (t.sel fun c => t.has 0 c).map (fun c => (0, c)) ++
      ((t.sel fun c => t.has 1 c).map (fun c => (1, c)) ++ (t.sel fun c => t.has 2 c).map fun c => (2, c)) := by
    unfold Typer.places
    simp [List.range_succ]
  rw [h3, List.map_append, List.map_append, List.sum_append, List.sum_append]
  have h4 : (sumTo nExog fun k => J.e i (t.count + k) * d.shock k) =
      sumTo nExog fun k => J.e i (t.count + k) * D (t.count + k) := by
    rw [sumTo_eq, sumTo_eq]
    exact Finset.sum_congr rfl fun j hj => by rw [hD.shock j (Finset.mem_range.mp hj)]
  rw [h4]
  ring

theorem curvature_flat {pss : List (List Int)} {t : Llx} (h : buildLlx pss = .ok t) {nExog : Nat} {d d' : Around V}
    {D D' : Nat → V} (hD : Flat t nExog d D) (hD' : Flat t nExog d' D') (H : Arr V) (i : Nat) :
    curvature t nExog H i d d' =
      sumTo (t.count + nExog) fun k => sumTo (t.count + nExog) fun l =>
        H.e i (k * (t.count + nExog) + l) * (D k * D' l) := by
  unfold curvature
  rw [linearised_flat h hD, sumTo_eq, sumTo_eq]
  refine Finset.sum_congr rfl fun k _ => ?_
  dsimp only
  rw [linearised_flat h hD', sumTo_eq, sumTo_eq, Finset.sum_mul]
  exact Finset.sum_congr rfl fun l _ => by dsimp only; ring

end flat

/-! ### bounds -/

section bounds
variable [Field V] [LinearOrder V] [IsStrictOrderedRing V]

theorem sumTo_abs_le {n : Nat} {a b : Nat → V} {B : V} (h : ∀ k < n, |b k| ≤ B) :
    |sumTo n fun k => a k * b k| ≤ (sumTo n fun k => |a k|) * B := by
  rw [sumTo_eq, sumTo_eq, Finset.sum_mul]
  refine (Finset.abs_sum_le_sum_abs _ _).trans (Finset.sum_le_sum fun k hk => ?_)
  rw [abs_mul]
  exact mul_le_mul_of_nonneg_left (h k (Finset.mem_range.mp hk)) (abs_nonneg _)

theorem sumTo_abs_nonneg (n : Nat) (a : Nat → V) : 0 ≤ sumTo n fun k => |a k| := by
  rw [sumTo_eq]; exact Finset.sum_nonneg fun k _ => abs_nonneg _

/-- a bound for the sum of the absolute entries of a row -/
theorem rowSums (n : Nat) (a : Nat → V) (ha : ∀ k, 0 ≤ a k) : ∃ M ≥ 0, ∀ k < n, a k ≤ M := by
  refine ⟨sumTo n a, ?_, fun k hk => ?_⟩
  · rw [sumTo_eq]; exact Finset.sum_nonneg fun k _ => ha k
  · rw [sumTo_eq]; exact Finset.single_le_sum (fun k _ => ha k) (Finset.mem_range.mpr hk)

theorem stateVals_le {t : Typer} {y : Nat → V} {r : V} {i c : Nat} (hi : t.drOrder[i]? = some c)
    (hy : ∀ c < t.n, |y c| ≤ r) (b : Nat) : |stateVals t y b| ≤ r := by
  have hm : ∀ c ∈ t.drOrder, c < t.n := by
    intro c hc
    simp only [Typer.drOrder, List.mem_append] at hc
    rcases hc with ((h | h) | h) | h <;>
      exact List.mem_range.mp (List.mem_filter.mp h).1
  have h0 : 0 < t.n := Nat.lt_of_le_of_lt (Nat.zero_le c) (hm c (List.mem_of_getElem? hi))
  unfold stateVals
  refine hy _ ?_
  generalize (t.permute t.drOrder).state[b]?.getD 0 = j
  cases hj : t.drOrder[j]? with
  | none => simpa using h0
  | some c' => exact hm c' (List.mem_of_getElem? hj)

theorem policy_bound (t : Typer) (nExog : Nat) (gy gu : Arr V) :
    ∃ M ≥ 0, ∀ (r : V) (ym u y : Nat → V), (∀ c < t.n, |ym c| ≤ r) → (∀ k < nExog, |u k| ≤ r) →
      FollowsPolicy t nExog gy gu ym u y → ∀ (i c : Nat), t.drOrder[i]? = some c → |y c| ≤ M * r := by
  obtain ⟨M, hM, hb⟩ := rowSums t.drOrder.length
    (fun i => (sumTo t.nBackward fun j => |gy.e i j|) + sumTo nExog fun k => |gu.e i k|)
    (fun i => add_nonneg (sumTo_abs_nonneg _ _) (sumTo_abs_nonneg _ _))
  refine ⟨M, hM, fun r ym u y hym hu hy i c hi => ?_⟩
  have hr : 0 ≤ r := by
    have := stateVals_le hi hym 0
    exact (abs_nonneg _).trans this
  rw [hy i c hi]
  have h1 := sumTo_abs_le (n := t.nBackward) (a := fun j => gy.e i j) (b := stateVals t ym) (B := r)
    (fun k _ => stateVals_le hi hym k)
  have h2 := sumTo_abs_le (n := nExog) (a := fun k => gu.e i k) (b := u) (B := r) hu
  refine (abs_add_le _ _).trans ((add_le_add h1 h2).trans ?_)
  rw [← add_mul]
  exact mul_le_mul_of_nonneg_right (hb i (List.getElem?_eq_some_iff.mp hi).1) hr

end bounds

/-! ### the vector of arguments -/

section assembled
variable [Field V] [LinearOrder V]

theorem linPoint_length {pss : List (List Int)} {t : Llx} (h : buildLlx pss = .ok t) (nExog : Nat) (ss : List V) :
    (linPoint t.toTyper nExog ss).length = t.count + nExog := by
  simp [linPoint, places_length h]

theorem linPoint_endog {pss : List (List Int)} {t : Llx} (h : buildLlx pss = .ok t) (nExog : Nat) (ss : List V)
    {r c k : Nat} (hk : t.cell r c = some k) : vecEntry (linPoint t.toTyper nExog ss) k = vecEntry ss c := by
  have hp := (places_get h).mp hk
  have hl : k < t.places.length := (List.getElem?_eq_some_iff.mp hp).1
  unfold vecEntry linPoint
  rw [List.getElem?_append_left (by simpa using hl), List.getElem?_map, hp]
  rfl

theorem linPoint_shock {pss : List (List Int)} {t : Llx} (h : buildLlx pss = .ok t) {nExog : Nat} (ss : List V)
    {j : Nat} (hj : j < nExog) : vecEntry (linPoint t.toTyper nExog ss) (t.count + j) = 0 := by
  unfold vecEntry linPoint
  rw [List.getElem?_append_right (by simp [places_length h])]
  simp [places_length h, hj]

/-- the deviations of the arguments from the steady state -/
def argDev (t : Llx) (nExog : Nat) (ss vec : List V) (k : Nat) : V :=
  vecEntry vec k - vecEntry (linPoint t.toTyper nExog ss) k

theorem assembled_flat {pss : List (List Int)} {t : Llx} (h : buildLlx pss = .ok t) {nExog : Nat} {ss vec : List V}
    {d : Around V} (ha : Assembled t nExog ss d vec) : Flat t nExog d (argDev t nExog ss vec) where
  before c k hk := by
    rw [argDev, linPoint_endog h nExog ss hk, vecEntry, ha.before c k hk]; simp
  now c k hk := by
    rw [argDev, linPoint_endog h nExog ss hk, vecEntry, ha.now c k hk]; simp
  after c k hk := by
    rw [argDev, linPoint_endog h nExog ss hk, vecEntry, ha.after c k hk]; simp
  shock j hj := by
    rw [argDev, linPoint_shock h ss hj, vecEntry, ha.shock j hj]; simp

/-- what bounds all deviations bounds the entries of the flat vector -/
theorem flat_le {pss : List (List Int)} {t : Llx} (h : buildLlx pss = .ok t) {nExog : Nat} {d : Around V} {D : Nat → V}
    (hD : Flat t nExog d D) {B : V} (h0 : ∀ c < t.n, |d.before c| ≤ B) (h1 : ∀ c < t.n, |d.now c| ≤ B)
    (h2 : ∀ c < t.n, |d.after c| ≤ B) (h3 : ∀ k < nExog, |d.shock k| ≤ B) :
    ∀ k < t.count + nExog, |D k| ≤ B := by
  intro k hk
  obtain ⟨hn, hc, -, -, hall⟩ := buildLlx_spec h
  by_cases hkc : k < t.count
  · obtain ⟨r, c, hrc⟩ := (hall k).mp hkc
    obtain ⟨hr, hcn⟩ := hc r c k hrc
    have hcn : c < t.n := by omega
    have : r = 0 ∨ r = 1 ∨ r = 2 := by omega
    rcases this with rfl | rfl | rfl
    · rw [hD.before c k hrc]; exact h0 c hcn
    · rw [hD.now c k hrc]; exact h1 c hcn
    · rw [hD.after c k hrc]; exact h2 c hcn
  · obtain ⟨j, rfl⟩ := Nat.exists_eq_add_of_le (Nat.le_of_not_lt hkc)
    have hj : j < nExog := by omega
    rw [hD.shock j hj]
    exact h3 j hj

theorem assembled_near {pss : List (List Int)} {t : Llx} (h : buildLlx pss = .ok t) {nExog : Nat} {ss vec : List V}
    {d : Around V} (ha : Assembled t nExog ss d vec) {B : V} (h0 : ∀ c < t.n, |d.before c| ≤ B)
    (h1 : ∀ c < t.n, |d.now c| ≤ B) (h2 : ∀ c < t.n, |d.after c| ≤ B) (h3 : ∀ k < nExog, |d.shock k| ≤ B) :
    Near (linPoint t.toTyper nExog ss) B vec := by
  have hl := linPoint_length h nExog ss
  refine ⟨by rw [hl, ha.len], fun k hk => ?_⟩
  exact flat_le h (assembled_flat h ha) h0 h1 h2 h3 k (by omega)

/-- a vector of arguments exists for all deviations -/
theorem assembled_exists {pss : List (List Int)} {t : Llx} (h : buildLlx pss = .ok t) (nExog : Nat) (ss : List V)
    (d : Around V) : ∃ vec, Assembled t nExog ss d vec := by
  let dev : Nat × Nat → V := fun p => vecEntry ss p.2 +
    (if p.1 = 0 then d.before p.2 else if p.1 = 1 then d.now p.2 else d.after p.2)
  have hget : ∀ r c k, t.cell r c = some k →
      ((t.places.map dev) ++ (List.range nExog).map d.shock)[k]? = some (dev (r, c)) := by
    intro r c k hk
    have hp := (places_get h).mp hk
    have hl : k < t.places.length := (List.getElem?_eq_some_iff.mp hp).1
    rw [List.getElem?_append_left (by simpa using hl), List.getElem?_map, hp]
    rfl
  refine ⟨t.places.map dev ++ (List.range nExog).map d.shock, by simp [places_length h], ?_, ?_, ?_, ?_⟩
  · intro c k hk; rw [hget 0 c k hk]; simp [dev]
  · intro c k hk; rw [hget 1 c k hk]; simp [dev]
  · intro c k hk; rw [hget 2 c k hk]; simp [dev]
  · intro j hj
    rw [List.getElem?_append_right (by simp [places_length h])]
    simp [places_length h, hj]

theorem flat_exists {pss : List (List Int)} {t : Llx} (h : buildLlx pss = .ok t) (nExog : Nat) (d : Around V) :
    ∃ D, Flat t nExog d D := by
  obtain ⟨vec, hv⟩ := assembled_exists h nExog [] d
  exact ⟨_, assembled_flat h hv⟩

end assembled

section unique
variable [CommRing V]

theorem flat_ext {pss : List (List Int)} {t : Llx} (h : buildLlx pss = .ok t) {nExog : Nat} {d d' : Around V}
    {D D' : Nat → V} (hD : Flat t nExog d D) (hD' : Flat t nExog d' D') (h0 : ∀ c < t.n, d.before c = d'.before c)
    (h1 : ∀ c < t.n, d.now c = d'.now c) (h2 : ∀ c < t.n, d.after c = d'.after c)
    (h3 : ∀ k < nExog, d.shock k = d'.shock k) : ∀ k < t.count + nExog, D k = D' k := by
  intro k hk
  obtain ⟨hn, hc, -, -, hall⟩ := buildLlx_spec h
  by_cases hkc : k < t.count
  · obtain ⟨r, c, hrc⟩ := (hall k).mp hkc
    obtain ⟨hr, hcn⟩ := hc r c k hrc
    have hcn : c < t.n := by omega
    have : r = 0 ∨ r = 1 ∨ r = 2 := by omega
    rcases this with rfl | rfl | rfl
    · rw [hD.before c k hrc, hD'.before c k hrc, h0 c hcn]
    · rw [hD.now c k hrc, hD'.now c k hrc, h1 c hcn]
    · rw [hD.after c k hrc, hD'.after c k hrc, h2 c hcn]
  · obtain ⟨j, rfl⟩ := Nat.exists_eq_add_of_le (Nat.le_of_not_lt hkc)
    have hj : j < nExog := by omega
    rw [hD.shock j hj, hD'.shock j hj, h3 j hj]

theorem flat_add {t : Llx} {nExog : Nat} {d d' : Around V} {D D' : Nat → V} (hD : Flat t nExog d D)
    (hD' : Flat t nExog d' D') : Flat t nExog ⟨fun c => d.before c + d'.before c, fun c => d.now c + d'.now c,
      fun c => d.after c + d'.after c, fun k => d.shock k + d'.shock k⟩ (fun k => D k + D' k) where
  before c k hk := by rw [hD.before c k hk, hD'.before c k hk]
  now c k hk := by rw [hD.now c k hk, hD'.now c k hk]
  after c k hk := by rw [hD.after c k hk, hD'.after c k hk]
  shock j hj := by rw [hD.shock j hj, hD'.shock j hj]

end unique

/-! ### residuals of all equations -/

section residuals
variable [Field V] [LinearOrder V] [IsStrictOrderedRing V]

theorem uniform_delta {α : Type} (l : List α) (P : α → V → Prop) (hP : ∀ a ∈ l, ∃ δ > 0, P a δ)
    (mono : ∀ a δ δ', 0 < δ' → δ' ≤ δ → P a δ → P a δ') : ∃ δ > 0, ∀ a ∈ l, P a δ := by
  induction l with
  | nil => exact ⟨1, one_pos, fun a ha => absurd ha (by simp)⟩
  | cons a l ih =>
    obtain ⟨δ, h1, h2⟩ := hP a (by simp)
    obtain ⟨δ', h3, h4⟩ := ih fun b hb => hP b (by simp [hb])
    refine ⟨min δ δ', lt_min h1 h3, fun b hb => ?_⟩
    rcases List.mem_cons.mp hb with rfl | hb
    · exact mono _ _ _ (lt_min h1 h3) (min_le_left _ _) h2
    · exact mono _ _ _ (lt_min h1 h3) (min_le_right _ _) (h4 b hb)

theorem callAll_of {fs : List (List V → Except Err V)} {vec : List V} {Q : Nat → V → Prop}
    (h : ∀ (i : Nat) f, fs[i]? = some f → ∃ v, f vec = .ok v ∧ Q i v) :
    ∃ vs, callAll fs vec = .ok vs ∧ vs.length = fs.length ∧ ∀ (i : Nat) v, vs[i]? = some v → Q i v := by
  induction fs generalizing Q with
  | nil => exact ⟨[], rfl, rfl, fun i v h => by simp at h⟩
  | cons f fs ih =>
    obtain ⟨v, hv, hq⟩ := h 0 f rfl
    obtain ⟨vs, h1, h2, h3⟩ := ih (Q := fun i => Q (i + 1)) fun i f hf => h (i + 1) f (by simpa using hf)
    refine ⟨v :: vs, by simp [callAll, hv, h1, bind, Except.bind], by simp [h2], fun i w hw => ?_⟩
    cases i with
    | zero => simp at hw; subst hw; exact hq
    | succ i => exact h3 i w (by simpa using hw)

end residuals

/-! ### second-order paths -/

section second
variable [Field V] [LinearOrder V] [IsStrictOrderedRing V]

/-- a vector over the variables from the values in decision-rule order -/
def byRow (t : Typer) (f : Nat → V) (c : Nat) : V := f (t.drOrder.idxOf c)

theorem byRow_eq {t : Typer} (hp : t.drOrder.Perm (List.range t.n)) (f : Nat → V) {i c : Nat}
    (h : t.drOrder[i]? = some c) : byRow t f c = f i := by
  have hnd : t.drOrder.Nodup := hp.nodup_iff.mpr List.nodup_range
  obtain ⟨hi, e⟩ := List.getElem?_eq_some_iff.mp h
  unfold byRow
  rw [← e, hnd.idxOf_getElem]

theorem quadForm_le {X : Arr V} {i r r' : Nat} {v w : Nat → V} {B B' : V} (hv : ∀ a < r, |v a| ≤ B)
    (hw : ∀ b < r', |w b| ≤ B') (hB : 0 ≤ B) :
    |quadForm X i r v r' w| ≤ (sumTo r fun a => sumTo r' fun b => |X.e i (a * r' + b)|) * (B * B') := by
  unfold quadForm
  rw [sumTo_eq, sumTo_eq, Finset.sum_mul]
  refine (Finset.abs_sum_le_sum_abs _ _).trans (Finset.sum_le_sum fun a ha => ?_)
  refine sumTo_abs_le fun b hb => ?_
  rw [abs_mul]
  exact mul_le_mul (hv a (Finset.mem_range.mp ha)) (hw b hb) (abs_nonneg _) hB

theorem quadForm_zero_right {X : Arr V} {i r r' : Nat} {v : Nat → V} : quadForm X i r v r' (fun _ => 0) = 0 := by
  unfold quadForm
  rw [sumTo_eq]
  refine Finset.sum_eq_zero fun a _ => ?_
  rw [sumTo_eq]
  exact Finset.sum_eq_zero fun b _ => by ring

theorem quadForm_zero_left {X : Arr V} {i r r' : Nat} {w : Nat → V} : quadForm X i r (fun _ => 0) r' w = 0 := by
  unfold quadForm
  rw [sumTo_eq]
  refine Finset.sum_eq_zero fun a _ => ?_
  rw [sumTo_eq]
  exact Finset.sum_eq_zero fun b _ => by ring

theorem quadForm_split {X : Arr V} {i r : Nat} {v w : Nat → V} :
    quadForm X i r (fun a => v a + w a) r (fun a => v a + w a) =
      quadForm X i r v r v + (quadForm X i r v r w + quadForm X i r w r v + quadForm X i r w r w) := by
  unfold quadForm
  simp only [sumTo_eq, ← Finset.sum_add_distrib]
  refine Finset.sum_congr rfl fun a _ => Finset.sum_congr rfl fun b _ => ?_
  ring

theorem quadSum_nonneg (X : Arr V) (i r r' : Nat) :
    0 ≤ sumTo r fun a => sumTo r' fun b => |X.e i (a * r' + b)| := by
  rw [sumTo_eq]
  exact Finset.sum_nonneg fun a _ => sumTo_abs_nonneg _ _

/-- the quadratic approximation along a path of the second-order solution -/
theorem quad_remainder {n : Nat} {J H : Arr V} {i : Nat} {K r : V} {D D1 D2 D3 : Nat → V} (hK : 0 ≤ K)
    (hr0 : 0 ≤ r) (hr1 : r ≤ 1) (hD : ∀ k < n, D k = D1 k + D2 k + D3 k) (h1 : ∀ k < n, |D1 k| ≤ K * r)
    (h2 : ∀ k < n, |D2 k| ≤ K * (r * r)) (h3 : ∀ k < n, |D3 k| ≤ K * (r * r * r))
    (z1 : (sumTo n fun k => J.e i k * D1 k) = 0)
    (z2 : 1 / 2 * quadForm H i n D1 n D1 + (sumTo n fun k => J.e i k * D2 k) = 0) :
    |(sumTo n fun k => J.e i k * D k) + 1 / 2 * quadForm H i n D n D| ≤
      ((sumTo n fun k => |J.e i k|) * K +
        (sumTo n fun a => sumTo n fun b => |H.e i (a * n + b)|) * (4 * (K * K))) * (r * r * r) := by
  let E : Nat → V := fun k => D2 k + D3 k
  have hrr : 0 ≤ r * r := mul_nonneg hr0 hr0
  have hrrr : r * r * r ≤ r * r := by
    have := mul_le_mul_of_nonneg_left hr1 hrr
    linarith
  have hE : ∀ k < n, |E k| ≤ 2 * K * (r * r) := by
    intro k hk
    refine (abs_add_le _ _).trans ((add_le_add (h2 k hk) (h3 k hk)).trans ?_)
    have := mul_le_mul_of_nonneg_left hrrr hK
    linarith
  have e1 : (sumTo n fun k => J.e i k * D k) = (sumTo n fun k => J.e i k * D1 k) +
      (sumTo n fun k => J.e i k * D2 k) + sumTo n fun k => J.e i k * D3 k := by
    simp only [sumTo_eq, ← Finset.sum_add_distrib]
    refine Finset.sum_congr rfl fun k hk => ?_
    rw [hD k (Finset.mem_range.mp hk)]
    ring
  have e2 : quadForm H i n D n D = quadForm H i n D1 n D1 +
      (quadForm H i n D1 n E + quadForm H i n E n D1 + quadForm H i n E n E) := by
    rw [← quadForm_split]
    have : ∀ k < n, D k = D1 k + E k := fun k hk => by rw [hD k hk, add_assoc]
    exact quadForm_congr (fun _ _ _ _ => rfl) this this
  have e3 : (sumTo n fun k => J.e i k * D k) + 1 / 2 * quadForm H i n D n D =
      (sumTo n fun k => J.e i k * D3 k) +
        1 / 2 * (quadForm H i n D1 n E + quadForm H i n E n D1 + quadForm H i n E n E) := by
    rw [e1, e2]
    linear_combination z1 + z2
  rw [e3]
  have hKr : 0 ≤ K * r := mul_nonneg hK hr0
  have hE0 : 0 ≤ 2 * K * (r * r) := by positivity
  have b0 := sumTo_abs_le (n := n) (a := fun k => J.e i k) h3
  have b1 := quadForm_le (X := H) (i := i) h1 hE hKr
  have b2 := quadForm_le (X := H) (i := i) hE h1 hE0
  have b3 := quadForm_le (X := H) (i := i) hE hE hE0
  have hS := quadSum_nonneg H i n n
  generalize (sumTo n fun a => sumTo n fun b => |H.e i (a * n + b)|) = S at *
  have b3' : S * (2 * K * (r * r) * (2 * K * (r * r))) ≤ S * (4 * (K * K)) * (r * r * r) := by
    have h5 : r * r * r * r ≤ r * r * r * 1 := mul_le_mul_of_nonneg_left hr1 (by positivity)
    have h6 := mul_le_mul_of_nonneg_left h5 (show 0 ≤ S * (4 * (K * K)) by positivity)
    linarith
  have b4 : |1 / 2 * (quadForm H i n D1 n E + quadForm H i n E n D1 + quadForm H i n E n E)| ≤
      S * (4 * (K * K)) * (r * r * r) := by
    rw [abs_mul, abs_of_pos (by norm_num : (0 : V) < 1 / 2)]
    have b5 := (abs_add_le (quadForm H i n D1 n E + quadForm H i n E n D1) (quadForm H i n E n E)).trans
      (add_le_add ((abs_add_le _ _).trans (add_le_add b1 b2)) (b3.trans b3'))
    have := mul_le_mul_of_nonneg_left b5 (show (0 : V) ≤ 1 / 2 by norm_num)
    refine this.trans (le_of_eq ?_)
    ring
  refine (abs_add_le _ _).trans ((add_le_add b0 b4).trans (le_of_eq ?_))
  ring

/-- a path of the second-order solution, split by order of magnitude -/
theorem second_split {t : Typer} (hp : t.drOrder.Perm (List.range t.n)) (nExog : Nat) (s : SecondNd V)
    (gy gu : Arr V) : ∃ K ≥ 1, ∀ (r : V) (ym u y yE : Nat → V), 0 ≤ r → r ≤ 1 →
      (∀ c < t.n, |ym c| ≤ r) → (∀ k < nExog, |u k| ≤ r) →
      FollowsSecond t nExog s gy gu ym u y → FollowsSecond t nExog s gy gu y (fun _ => 0) yE →
      ∃ y1 q yp q' ρ : Nat → V, FollowsPolicy t nExog gy gu ym u y1 ∧
        FollowsPolicy t nExog gy gu y1 (fun _ => 0) yp ∧ SecondTerms t nExog s ym u q ∧
        NextTerms t s gy y1 q q' ∧ (∀ c < t.n, y c = y1 c + q c) ∧
        (∀ c < t.n, yE c = yp c + q' c + ρ c) ∧ (∀ c < t.n, |y1 c| ≤ K * r) ∧ (∀ c < t.n, |yp c| ≤ K * r) ∧
        (∀ c < t.n, |q c| ≤ K * (r * r)) ∧ (∀ c < t.n, |q' c| ≤ K * (r * r)) ∧
        ∀ c < t.n, |ρ c| ≤ K * (r * r * r) := by
  have hdr : ∀ c < t.n, ∃ i : Nat, t.drOrder[i]? = some c := by
    intro c hc
    have := hp.mem_iff.mpr (List.mem_range.mpr hc)
    obtain ⟨i, hi, e⟩ := List.getElem_of_mem this
    exact ⟨i, by rw [List.getElem?_eq_getElem hi, e]⟩
  obtain ⟨M, hM, hb⟩ := policy_bound t nExog gy gu
  obtain ⟨X, hX0, hX⟩ := rowSums t.drOrder.length
    (fun i => sumTo t.nBackward fun a => sumTo t.nBackward fun b => |s.ghxx.to2.e i (a * t.nBackward + b)|)
    (fun i => quadSum_nonneg _ _ _ _)
  obtain ⟨Y, hY0, hY⟩ := rowSums t.drOrder.length
    (fun i => sumTo t.nBackward fun a => sumTo nExog fun b => |s.ghxu.to2.e i (a * nExog + b)|)
    (fun i => quadSum_nonneg _ _ _ _)
  obtain ⟨W, hW0, hW⟩ := rowSums t.drOrder.length
    (fun i => sumTo nExog fun a => sumTo nExog fun b => |s.ghuu.to2.e i (a * nExog + b)|)
    (fun i => quadSum_nonneg _ _ _ _)
  -- bounds of the parts
  let Q := X + Y + W
  have hQ0 : 0 ≤ Q := by positivity
  let K := 1 + M + M * M + Q + (M * Q + X * (M * M)) + X * (2 * (M * Q) + Q * Q)
  refine ⟨K, by
    have : 0 ≤ M + M * M + Q + (M * Q + X * (M * M)) + X * (2 * (M * Q) + Q * Q) := by positivity
    show 1 ≤ 1 + M + M * M + Q + (M * Q + X * (M * M)) + X * (2 * (M * Q) + Q * Q)
    linarith, ?_⟩
  intro r ym u y yE hr0 hr1 hym hu hy hyE
  let sv : (Nat → V) → Nat → V := stateVals t
  let y1 := byRow t fun i => (sumTo t.nBackward fun j => gy.e i j * sv ym j) + sumTo nExog fun k => gu.e i k * u k
  let q := byRow t fun i => quadForm s.ghxx.to2 i t.nBackward (sv ym) t.nBackward (sv ym) +
      quadForm s.ghxu.to2 i t.nBackward (sv ym) nExog u + quadForm s.ghuu.to2 i nExog u nExog u
  let yp := byRow t fun i => (sumTo t.nBackward fun j => gy.e i j * sv y1 j) +
      sumTo nExog fun k => gu.e i k * (0 : V)
  let q' := byRow t fun i => (sumTo t.nBackward fun b => gy.e i b * sv q b) +
      quadForm s.ghxx.to2 i t.nBackward (sv y1) t.nBackward (sv y1)
  let ρ := byRow t fun i => quadForm s.ghxx.to2 i t.nBackward (sv y1) t.nBackward (sv q) +
      quadForm s.ghxx.to2 i t.nBackward (sv q) t.nBackward (sv y1) +
      quadForm s.ghxx.to2 i t.nBackward (sv q) t.nBackward (sv q)
  have f1 : FollowsPolicy t nExog gy gu ym u y1 := fun i c hi => byRow_eq hp _ hi
  have f2 : FollowsPolicy t nExog gy gu y1 (fun _ => 0) yp := fun i c hi => byRow_eq hp _ hi
  have f3 : SecondTerms t nExog s ym u q := fun i c hi => byRow_eq hp _ hi
  have f4 : NextTerms t s gy y1 q q' := fun i c hi => byRow_eq hp _ hi
  have f5 : ∀ c < t.n, y c = y1 c + q c := by
    intro c hc
    obtain ⟨i, hi⟩ := hdr c hc
    rw [hy i c hi, show y1 c = _ from byRow_eq hp _ hi, show q c = _ from byRow_eq hp _ hi]
    simp only [sv]
    ring
  have hsv : ∀ b < t.nBackward, sv y b = sv y1 b + sv q b := by
    intro b hb
    have h0 : 0 < t.n := by
      have := nBackward_le t
      omega
    refine f5 _ ?_
    generalize (t.permute t.drOrder).state[b]?.getD 0 = j
    cases hj : t.drOrder[j]? with
    | none => simpa using h0
    | some c' => exact List.mem_range.mp (hp.mem_iff.mp (List.mem_of_getElem? hj))
  have f6 : ∀ c < t.n, yE c = yp c + q' c + ρ c := by
    intro c hc
    obtain ⟨i, hi⟩ := hdr c hc
    rw [hyE i c hi, show yp c = _ from byRow_eq hp _ hi, show q' c = _ from byRow_eq hp _ hi,
      show ρ c = _ from byRow_eq hp _ hi, quadForm_zero_right, quadForm_zero_right]
    have e1 : quadForm s.ghxx.to2 i t.nBackward (stateVals t y) t.nBackward (stateVals t y) =
        quadForm s.ghxx.to2 i t.nBackward (fun a => sv y1 a + sv q a) t.nBackward (fun a => sv y1 a + sv q a) :=
      quadForm_congr (fun _ _ _ _ => rfl) hsv hsv
    have e2 : (sumTo t.nBackward fun b => gy.e i b * stateVals t y b) =
        (sumTo t.nBackward fun b => gy.e i b * sv y1 b) + sumTo t.nBackward fun b => gy.e i b * sv q b := by
      simp only [sumTo_eq, ← Finset.sum_add_distrib]
      refine Finset.sum_congr rfl fun b hb => ?_
      rw [show stateVals t y b = _ from hsv b (Finset.mem_range.mp hb)]
      ring
    rw [e1, e2, quadForm_split]
    ring
  have hMr : 0 ≤ M * r := mul_nonneg hM hr0
  have b1 : ∀ c < t.n, |y1 c| ≤ M * r := fun c hc => by
    obtain ⟨i, hi⟩ := hdr c hc
    exact hb r ym u y1 hym hu f1 i c hi
  have b2 : ∀ c < t.n, |yp c| ≤ M * (M * r) := fun c hc => by
    obtain ⟨i, hi⟩ := hdr c hc
    exact hb (M * r) y1 (fun _ => 0) yp b1 (fun k _ => by rw [abs_zero]; exact hMr) f2 i c hi
  have b3 : ∀ c < t.n, |q c| ≤ Q * (r * r) := fun c hc => by
    obtain ⟨i, hi⟩ := hdr c hc
    have hl := (List.getElem?_eq_some_iff.mp hi).1
    rw [show q c = _ from byRow_eq hp _ hi]
    have h1 := quadForm_le (X := s.ghxx.to2) (i := i) (r := t.nBackward) (r' := t.nBackward)
      (fun a _ => stateVals_le hi hym a) (fun a _ => stateVals_le hi hym a) hr0
    have h2 := quadForm_le (X := s.ghxu.to2) (i := i) (r := t.nBackward) (r' := nExog)
      (fun a _ => stateVals_le hi hym a) hu hr0
    have h3 := quadForm_le (X := s.ghuu.to2) (i := i) (r := nExog) (r' := nExog) hu hu hr0
    have hrr : 0 ≤ r * r := mul_nonneg hr0 hr0
    have h1' := mul_le_mul_of_nonneg_right (hX i hl) hrr
    have h2' := mul_le_mul_of_nonneg_right (hY i hl) hrr
    have h3' := mul_le_mul_of_nonneg_right (hW i hl) hrr
    refine (abs_add_le _ _).trans ((add_le_add ((abs_add_le _ _).trans (add_le_add (h1.trans h1') (h2.trans h2')))
      (h3.trans h3')).trans (le_of_eq ?_))
    simp only [Q]
    ring
  have hQr : 0 ≤ Q * (r * r) := mul_nonneg hQ0 (mul_nonneg hr0 hr0)
  have b4 : ∀ c < t.n, |q' c| ≤ (M * Q + X * (M * M)) * (r * r) := fun c hc => by
    obtain ⟨i, hi⟩ := hdr c hc
    have hl := (List.getElem?_eq_some_iff.mp hi).1
    rw [show q' c = _ from byRow_eq hp _ hi]
    let z := byRow t fun i => (sumTo t.nBackward fun j => gy.e i j * sv q j) +
      sumTo nExog fun k => gu.e i k * (0 : V)
    have f7 : FollowsPolicy t nExog gy gu q (fun _ => 0) z := fun i c hi => byRow_eq hp _ hi
    have h1 := hb _ q (fun _ => 0) z b3 (fun k _ => by rw [abs_zero]; exact hQr) f7 i c hi
    rw [show z c = _ from byRow_eq hp _ hi] at h1
    have h0 : (sumTo nExog fun k => gu.e i k * (0 : V)) = 0 := by
      rw [sumTo_eq]; exact Finset.sum_eq_zero fun k _ => mul_zero _
    simp only [h0, add_zero] at h1
    have h2 := quadForm_le (X := s.ghxx.to2) (i := i) (r := t.nBackward) (r' := t.nBackward)
      (fun a _ => stateVals_le hi b1 a) (fun a _ => stateVals_le hi b1 a) hMr
    have h2' := mul_le_mul_of_nonneg_right (hX i hl) (mul_nonneg hMr hMr)
    refine (abs_add_le _ _).trans ((add_le_add h1 (h2.trans h2')).trans (le_of_eq ?_))
    ring
  have b5 : ∀ c < t.n, |ρ c| ≤ X * (2 * (M * Q) + Q * Q) * (r * r * r) := fun c hc => by
    obtain ⟨i, hi⟩ := hdr c hc
    have hl := (List.getElem?_eq_some_iff.mp hi).1
    rw [show ρ c = _ from byRow_eq hp _ hi]
    have h1 := quadForm_le (X := s.ghxx.to2) (i := i) (r := t.nBackward) (r' := t.nBackward)
      (fun a _ => stateVals_le hi b1 a) (fun a _ => stateVals_le hi b3 a) hMr
    have h2 := quadForm_le (X := s.ghxx.to2) (i := i) (r := t.nBackward) (r' := t.nBackward)
      (fun a _ => stateVals_le hi b3 a) (fun a _ => stateVals_le hi b1 a) hQr
    have h3 := quadForm_le (X := s.ghxx.to2) (i := i) (r := t.nBackward) (r' := t.nBackward)
      (fun a _ => stateVals_le hi b3 a) (fun a _ => stateVals_le hi b3 a) hQr
    have h1' := h1.trans (mul_le_mul_of_nonneg_right (hX i hl) (mul_nonneg hMr hQr))
    have h2' := h2.trans (mul_le_mul_of_nonneg_right (hX i hl) (mul_nonneg hQr hMr))
    have h3' := h3.trans (mul_le_mul_of_nonneg_right (hX i hl) (mul_nonneg hQr hQr))
    refine (abs_add_le _ _).trans ((add_le_add ((abs_add_le _ _).trans (add_le_add h1' h2')) h3').trans ?_)
    have h4 : X * (Q * (r * r) * (Q * (r * r))) ≤ X * (Q * Q) * (r * r * r) := by
      have : r * r * r * r ≤ r * r * r * 1 := mul_le_mul_of_nonneg_left hr1 (by positivity)
      have h5 := mul_le_mul_of_nonneg_left this (show 0 ≤ X * (Q * Q) by positivity)
      linarith
    linarith
  have hMQ : 0 ≤ M * Q := mul_nonneg hM hQ0
  have hMM : 0 ≤ M * M := mul_nonneg hM hM
  have c4 : 0 ≤ M * Q + X * (M * M) := by positivity
  have c5 : 0 ≤ X * (2 * (M * Q) + Q * Q) := by positivity
  have hrr : 0 ≤ r * r := mul_nonneg hr0 hr0
  have hrrr : 0 ≤ r * r * r := mul_nonneg hrr hr0
  have k1 : M ≤ K := by show M ≤ 1 + M + M * M + Q + (M * Q + X * (M * M)) + X * (2 * (M * Q) + Q * Q); linarith
  have k2 : M * M ≤ K := by
    show M * M ≤ 1 + M + M * M + Q + (M * Q + X * (M * M)) + X * (2 * (M * Q) + Q * Q); linarith
  have k3 : Q ≤ K := by show Q ≤ 1 + M + M * M + Q + (M * Q + X * (M * M)) + X * (2 * (M * Q) + Q * Q); linarith
  have k4 : M * Q + X * (M * M) ≤ K := by
    show M * Q + X * (M * M) ≤ 1 + M + M * M + Q + (M * Q + X * (M * M)) + X * (2 * (M * Q) + Q * Q); linarith
  have k5 : X * (2 * (M * Q) + Q * Q) ≤ K := by
    show X * (2 * (M * Q) + Q * Q) ≤ 1 + M + M * M + Q + (M * Q + X * (M * M)) + X * (2 * (M * Q) + Q * Q); linarith
  refine ⟨y1, q, yp, q', ρ, f1, f2, f3, f4, f5, f6, ?_, ?_, ?_, ?_, ?_⟩
  · exact fun c hc => (b1 c hc).trans (mul_le_mul_of_nonneg_right k1 hr0)
  · intro c hc
    refine (b2 c hc).trans ?_
    rw [← mul_assoc]
    exact mul_le_mul_of_nonneg_right k2 hr0
  · exact fun c hc => (b3 c hc).trans (mul_le_mul_of_nonneg_right k3 hrr)
  · exact fun c hc => (b4 c hc).trans (mul_le_mul_of_nonneg_right k4 hrr)
  · exact fun c hc => (b5 c hc).trans (mul_le_mul_of_nonneg_right k5 hrrr)

end second

/-! ### derivatives -/

section deriv
variable [Field V] [LinearOrder V] [IsStrictOrderedRing V]

theorem zero_of_small' {x : V} (h : ∀ ε > 0, |x| ≤ ε) : x = 0 := by
  by_contra hx
  have hpos : 0 < |x| := abs_pos.mpr hx
  have := h (|x| / 2) (by positivity)
  linarith

theorem entry_set {p : List V} {k l : Nat} {v : V} (hk : k < p.length) :
    vecEntry (p.set k v) l = if l = k then v else vecEntry p l := by
  unfold vecEntry
  rw [List.getElem?_set]
  split
  · rename_i h; subst h; simp [hk]
  · rename_i h; rw [if_neg (fun e => h e.symm)]

/-- there is at most one derivative -/
theorem isDeriv_unique {f : List V → Except Err V} {p : List V} {g g' : Nat → V} (h : IsDerivAt f p g)
    (h' : IsDerivAt f p g') : ∀ k < p.length, g k = g' k := by
  intro k hk
  obtain ⟨v₀, hv, h⟩ := h
  obtain ⟨v₁, hv', h'⟩ := h'
  rw [hv] at hv'
  cases hv'
  refine sub_eq_zero.mp (zero_of_small' fun ε hε => ?_)
  obtain ⟨δ, hδ, h⟩ := h (ε / 2) (by positivity)
  obtain ⟨δ', hδ', h'⟩ := h' (ε / 2) (by positivity)
  have hr : 0 < min δ δ' := lt_min hδ hδ'
  have hnear : Near p (min δ δ') (p.set k (vecEntry p k + min δ δ')) := by
    refine ⟨by simp, fun l _ => ?_⟩
    rw [entry_set hk]
    split
    · rename_i e; subst e; simp [abs_of_pos hr]
    · simp [hr.le]
  have hsum : ∀ g : Nat → V, (sumTo p.length fun l => g l * (vecEntry (p.set k (vecEntry p k + min δ δ')) l - vecEntry p l)) =
      g k * min δ δ' := by
    intro g
    rw [sumTo_eq, Finset.sum_eq_single k]
    · rw [entry_set hk, if_pos rfl]; ring
    · intro l _ hlk
      rw [entry_set hk, if_neg hlk]; ring
    · intro hk'; exact absurd (Finset.mem_range.mpr hk) hk'
  obtain ⟨v, e1, b1⟩ := h _ hr.le (min_le_left _ _) _ hnear
  obtain ⟨w, e2, b2⟩ := h' _ hr.le (min_le_right _ _) _ hnear
  rw [e1] at e2
  cases e2
  rw [hsum] at b1 b2
  have h3 : |(g k - g' k) * min δ δ'| ≤ ε * min δ δ' := by
    have : (g k - g' k) * min δ δ' = (v - v₀ - g' k * min δ δ') - (v - v₀ - g k * min δ δ') := by ring
    rw [this]
    refine (abs_sub _ _).trans ?_
    linarith
  rw [abs_mul, abs_of_pos hr] at h3
  exact le_of_mul_le_mul_right h3 hr

theorem isDeriv_congr {f : List V → Except Err V} {p : List V} {g g' : Nat → V} (h : IsDerivAt f p g)
    (e : ∀ k < p.length, g k = g' k) : IsDerivAt f p g' := by
  obtain ⟨v₀, hv, h⟩ := h
  refine ⟨v₀, hv, fun ε hε => ?_⟩
  obtain ⟨δ, hδ, h⟩ := h ε hε
  refine ⟨δ, hδ, fun r h0 hr x hx => ?_⟩
  obtain ⟨v, h1, h2⟩ := h r h0 hr x hx
  refine ⟨v, h1, le_trans (le_of_eq ?_) h2⟩
  congr 2
  rw [sumTo_eq, sumTo_eq]
  exact Finset.sum_congr rfl fun k hk => by rw [e k (Finset.mem_range.mp hk)]

/-- a quadratic approximation contains a linear one -/
theorem isTaylor_isDeriv {f : List V → Except Err V} {p : List V} {g h : Nat → V} (ht : IsTaylorAt f p g h) :
    IsDerivAt f p g := by
  obtain ⟨v₀, hv, ht⟩ := ht
  refine ⟨v₀, hv, fun ε hε => ?_⟩
  obtain ⟨δ, hδ, ht⟩ := ht 1 one_pos
  let X : Arr V := ⟨1, p.length * p.length, fun _ => h⟩
  have hS := quadSum_nonneg X 0 p.length p.length
  let S := sumTo p.length fun a => sumTo p.length fun b => |X.e 0 (a * p.length + b)|
  have hS : 0 ≤ S := hS
  refine ⟨min δ (ε / (1 + S)), lt_min hδ (by positivity), fun r h0 hr x hx => ?_⟩
  obtain ⟨v, h1, h2⟩ := ht r h0 (hr.trans (min_le_left _ _)) x hx
  refine ⟨v, h1, ?_⟩
  have hq := quadForm_le (X := X) (i := 0) (r := p.length) (r' := p.length)
    (v := fun k => vecEntry x k - vecEntry p k) (w := fun k => vecEntry x k - vecEntry p k) hx.2 hx.2 h0
  have hr' : r * (1 + S) ≤ ε := (le_div_iff₀ (by positivity)).mp (hr.trans (min_le_right _ _))
  have hq' : |quadForm X 0 p.length (fun k => vecEntry x k - vecEntry p k) p.length fun k => vecEntry x k - vecEntry p k| ≤
      S * (r * r) := hq
  have e : v - v₀ - (sumTo p.length fun k => g k * (vecEntry x k - vecEntry p k)) =
      (v - v₀ - (sumTo p.length fun k => g k * (vecEntry x k - vecEntry p k)) -
        1 / 2 * sumTo p.length fun k => sumTo p.length fun l =>
          h (k * p.length + l) * ((vecEntry x k - vecEntry p k) * (vecEntry x l - vecEntry p l))) +
        1 / 2 * quadForm X 0 p.length (fun k => vecEntry x k - vecEntry p k) p.length fun k => vecEntry x k - vecEntry p k := by
    unfold quadForm
    ring
  rw [e]
  refine (abs_add_le _ _).trans ((add_le_add h2 (le_of_eq (abs_mul _ _))).trans ?_)
  rw [abs_of_pos (by norm_num : (0 : V) < 1 / 2)]
  have hrr : r * r * (1 + S) ≤ r * ε := by
    have := mul_le_mul_of_nonneg_left hr' h0
    linarith
  have hSr : 0 ≤ S * (r * r) := by positivity
  nlinarith

/-- the value of a quadratic function -/
def quadVal (n : Nat) (g h : Nat → V) (x : List V) : V :=
  (sumTo n fun k => g k * vecEntry x k) + 1 / 2 * sumTo n fun k => sumTo n fun l =>
    h (k * n + l) * (vecEntry x k * vecEntry x l)

/-- a quadratic function, for the examples -/
def quadFun (n : Nat) (g h : Nat → V) (x : List V) : Except Err V :=
  if x.length = n then .ok (quadVal n g h x) else .error .valueError

/-- its derivatives -/
def quadGrad (n : Nat) (g h : Nat → V) (p : List V) (k : Nat) : V :=
  g k + sumTo n fun l => 1 / 2 * (h (k * n + l) + h (l * n + k)) * vecEntry p l

theorem quadFun_taylor (g h : Nat → V) (p : List V) :
    IsTaylorAt (quadFun p.length g h) p (quadGrad p.length g h p) h := by
  refine ⟨_, if_pos rfl, fun ε hε => ⟨1, one_pos, fun r h0 _ x hx => ⟨_, if_pos hx.1, ?_⟩⟩⟩
  refine le_trans (le_of_eq ?_) (mul_nonneg hε.le (mul_nonneg h0 h0))
  rw [abs_eq_zero]
  generalize p.length = n
  have e1 : (sumTo n fun k => quadGrad n g h p k * (vecEntry x k - vecEntry p k)) =
      (sumTo n fun k => g k * (vecEntry x k - vecEntry p k)) +
        1 / 2 * ((sumTo n fun k => sumTo n fun l => h (k * n + l) * (vecEntry p l * (vecEntry x k - vecEntry p k))) +
          sumTo n fun k => sumTo n fun l => h (k * n + l) * (vecEntry p k * (vecEntry x l - vecEntry p l))) := by
    have e2 : (sumTo n fun k => sumTo n fun l => h (k * n + l) * (vecEntry p k * (vecEntry x l - vecEntry p l))) =
        sumTo n fun k => sumTo n fun l => h (l * n + k) * (vecEntry p l * (vecEntry x k - vecEntry p k)) := by
      simp only [sumTo_eq]
      exact Finset.sum_comm
    rw [e2]
    simp only [sumTo_eq, ← Finset.sum_add_distrib, Finset.mul_sum]
    refine Finset.sum_congr rfl fun k _ => ?_
    unfold quadGrad
    rw [sumTo_eq, add_mul, Finset.sum_mul]
    congr 1
    exact Finset.sum_congr rfl fun l _ => by ring
  rw [e1]
  unfold quadVal
  simp only [sumTo_eq, Finset.mul_sum, ← Finset.sum_sub_distrib, ← Finset.sum_add_distrib]
  refine Finset.sum_eq_zero fun k _ => ?_
  rw [add_comm (g k * vecEntry x k), add_comm (g k * vecEntry p k), add_comm (g k * (vecEntry x k - vecEntry p k)),
    add_sub_add_comm, ← Finset.sum_sub_distrib]
  rw [sub_eq_zero, sub_eq_iff_eq_add]
  have : ∀ A B a b c : V, A = B → a = c → A + a = B + c := fun A B a b c h1 h2 => by rw [h1, h2]
  rw [show ∀ a b c : V, a + (b + c) = (a + b) + c from fun a b c => (add_assoc a b c).symm,
    ← Finset.sum_add_distrib]
  refine this _ _ _ 0 _ (Finset.sum_congr rfl fun l _ => ?_) ?_ <;> ring

end deriv

end Pynare
