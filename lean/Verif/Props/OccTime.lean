import Verif.Lemmas.OccTime
import Verif.Model.OccObj
import Verif.Props.OccBin
import Verif.Examples.OccTime
/-!
# C136 to C141: constrained solutions over time, orders of constraints, and objects that hold constrained solutions
-/

namespace Pynare

variable {V : Type} [CommRing V]

set_option linter.unusedSectionVars false

/-! ### C136: without further shocks -/

/-- **C136, one constraint** (partial: the search for the last date must have ended by itself, in the reference regime
in the last two periods, and the constraint must not bind in the periods beyond the horizon).  Then adding dates without
shocks does not change the paths: the solution goes on as it was expected. -/
theorem C136_one_partial (la : LinAlg V) (gy gu : Arr V) (ref alt : Regime V) (binds relaxes : (Nat → V) → Bool)
    (periods maxIter : Nat) (init : Nat → V) (ss : List (Nat → V)) (s x : Nat → V) (h0 h : List Bool)
    (g : Nat → Nat → V) (q : Nat) (hq : ss.length + 1 + q ≤ periods)
    (ha : Arrives (solveOne la gy gu ref alt binds relaxes periods maxIter) nextDate
      (List.replicate (periods + 1) false) init ss h0 x)
    (hs : solveOne la gy gu ref alt binds relaxes periods maxIter x s h0 = .ok (h, some g, false))
    (hend : h[periods - 1]? = some false) (hend2 : h[periods]? = some false)
    (hslack : ∀ j, 0 < j → j ≤ q → binds (g (periods + j)) = false) :
    ∃ rows, occbinOne la gy gu ref alt binds relaxes periods maxIter init (ss ++ [s]) = .ok rows ∧
      occbinOne la gy gu ref alt binds relaxes periods maxIter init (ss ++ s :: List.replicate q fun _ => 0) =
        .ok rows := by
  have hl0 : ∀ {ss h0 x}, Arrives (solveOne la gy gu ref alt binds relaxes periods maxIter) nextDate
      (List.replicate (periods + 1) false) init ss h0 x → h0.length = periods + 1 := by
    intro ss h0 x ha
    induction ha with
    | start => simp
    | @date ss s h h' x g c ha hs ih =>
      unfold solveOne at hs
      have := guessLoop_inv (fun h : List Bool => h.length = periods + 1) (fun h g hi => by
        rw [updateHypo_length (by rw [tests_length, hi]) (by rw [tests_length, hi])]; exact hi) _ _ _ ih hs
      unfold nextDate; simp; omega
  obtain ⟨path, e, c1, c2, c3⟩ := C58_consistent la gy gu ref alt binds relaxes periods maxIter x s h0 h (hl0 ha) _ hs
  cases e
  obtain ⟨it, rfl⟩ : ∃ it, maxIter = it + 1 := by
    cases maxIter with
    | zero => simp [solveOne, guessLoop] at hs
    | succ it => exact ⟨it, rfl⟩
  have hz : ∀ j < q, solveOne la gy gu ref alt binds relaxes periods (it + 1) (g j) (fun _ => 0)
      (nextDate^[j + 1] h) = .ok (nextDate^[j + 1] h, some fun k => g (k + j + 1), false) := by
    intro j hj
    obtain ⟨l1, l2⟩ := nextDate_get c2 (j + 1)
    unfold solveOne
    rw [guessLoop, bind_ok_of_eq _ (hypothesized_dates c2 (by omega) hend hend2 c1 j)]
    have b1 : ∀ t : (Nat → V) → Bool, (tests periods t fun k => g (k + j + 1)).length = (nextDate^[j + 1] h).length :=
      fun t => by rw [tests_length, l1]
    have hm : mismatch (nextDate^[j + 1] h) (tests periods binds fun k => g (k + j + 1))
        (tests periods relaxes fun k => g (k + j + 1)) = false := by
      rw [mismatch_false (b1 _) (b1 _)]
      constructor
      · intro k hk
        have hkp : k ≤ periods := by
          have := (List.getElem?_eq_some_iff.mp hk).1
          rw [tests_length] at this; omega
        rw [tests_get hkp] at hk
        rw [l2 k hkp]
        split
        · rename_i hh
          exact (c3 (k + (j + 1)) hh).1 (Option.some.inj hk)
        · rename_i hh
          have := hslack (k + j + 1 - periods) (by omega) (by omega)
          rw [show periods + (k + j + 1 - periods) = k + j + 1 by omega] at this
          rw [this] at hk
          simp at hk
      · intro k hk
        have hkp : k ≤ periods := by
          have := (List.getElem?_eq_some_iff.mp hk).1
          omega
        rw [tests_get hkp]
        rw [l2 k hkp] at hk
        split at hk
        · rename_i hh
          exact congrArg some ((c3 (k + (j + 1)) hh).2 hk)
        · simp at hk
    rw [if_neg (by rw [hm]; simp), updateHypo_same (b1 _) (b1 _) hm]
  obtain ⟨rows, -, r⟩ := fillRest_zeros (periods := periods) ha hs
  exact ⟨_, r 0 (by omega) fun j hj => absurd hj (by omega), r q hq hz⟩

/-- **C136, two constraints** (partial, as for one). -/
theorem C136_two_partial (la : LinAlg V) (gy gu : Arr V) (ref alt0 alt1 dbl : Regime V)
    (binds0 relaxes0 binds1 relaxes1 : (Nat → V) → Bool) (restrained : Bool) (periods maxIter : Nat)
    (init : Nat → V) (ss : List (Nat → V)) (s x : Nat → V) (h0 h : List (Bool × Bool)) (g : Nat → Nat → V) (q : Nat)
    (hq : ss.length + 1 + q ≤ periods)
    (ha : Arrives (solveTwo la gy gu ref alt0 alt1 dbl binds0 relaxes0 binds1 relaxes1 restrained periods maxIter)
      nextDates (List.replicate (periods + 1) (false, false)) init ss h0 x)
    (hs : solveTwo la gy gu ref alt0 alt1 dbl binds0 relaxes0 binds1 relaxes1 restrained periods maxIter x s h0 =
      .ok (h, some g, false))
    (hend : h[periods - 1]? = some (false, false)) (hend2 : h[periods]? = some (false, false))
    (hslack : ∀ j, 0 < j → j ≤ q → binds0 (g (periods + j)) = false ∧ binds1 (g (periods + j)) = false) :
    ∃ rows, occbinTwo la gy gu ref alt0 alt1 dbl binds0 relaxes0 binds1 relaxes1 restrained periods maxIter init
        (ss ++ [s]) = .ok rows ∧
      occbinTwo la gy gu ref alt0 alt1 dbl binds0 relaxes0 binds1 relaxes1 restrained periods maxIter init
        (ss ++ s :: List.replicate q fun _ => 0) = .ok rows := by
  have len : ∀ (t0 t1 : (Nat → V) → Bool) (g : Nat → Nat → V) (h : List (Bool × Bool)),
      h.length = periods + 1 → (tests periods t0 g ++ tests periods t1 g).length = 2 * h.length := by
    intro t0 t1 g h hh
    rw [List.length_append, tests_length, tests_length, hh]; omega
  have hl0 : ∀ {ss h0 x}, Arrives (solveTwo la gy gu ref alt0 alt1 dbl binds0 relaxes0 binds1 relaxes1 restrained
      periods maxIter) nextDates (List.replicate (periods + 1) (false, false)) init ss h0 x →
      h0.length = periods + 1 := by
    intro ss h0 x ha
    induction ha with
    | start => simp
    | @date ss s h h' x g c ha hs ih =>
      unfold solveTwo at hs
      simp only [updateRestrained_eq, ite_self] at hs
      exact nextDates_length (guessLoop_inv (fun h : List (Bool × Bool) => h.length = periods + 1) (fun h g hi => by
        rw [updateTwo_length (len _ _ _ _ hi) (len _ _ _ _ hi)]; exact hi) _ _ _ ih hs)
  obtain ⟨path, e, c1, c2, c3⟩ := C58_two_consistent la gy gu ref alt0 alt1 dbl binds0 relaxes0 binds1 relaxes1
    restrained periods maxIter x s h0 h (hl0 ha) _ hs
  cases e
  obtain ⟨it, rfl⟩ : ∃ it, maxIter = it + 1 := by
    cases maxIter with
    | zero => simp [solveTwo, guessLoop] at hs
    | succ it => exact ⟨it, rfl⟩
  have hz : ∀ j < q, solveTwo la gy gu ref alt0 alt1 dbl binds0 relaxes0 binds1 relaxes1 restrained periods (it + 1)
      (g j) (fun _ => 0) (nextDates^[j + 1] h) =
        .ok (nextDates^[j + 1] h, some fun k => g (k + j + 1), false) := by
    intro j hj
    obtain ⟨l1, l2⟩ := nextDates_get c2 (j + 1)
    unfold solveTwo
    simp only [updateRestrained_eq, ite_self]
    rw [guessLoop, bind_ok_of_eq _ (hypothesizedTwo_dates c2 (by omega) hend hend2 c1 j)]
    have b1 : ∀ (f : Bool × Bool → Bool) (t : (Nat → V) → Bool),
        (tests periods t fun k => g (k + j + 1)).length = ((nextDates^[j + 1] h).map f).length :=
      fun f t => by rw [tests_length, List.length_map, l1]
    have hget : ∀ (k : Nat) (x y : Bool), (nextDates^[j + 1] h)[k]? = some (x, y) →
        k ≤ periods ∧ (binds0 (g (k + j + 1)) = true → x = true) ∧ (x = true → relaxes0 (g (k + j + 1)) = false) ∧
        (binds1 (g (k + j + 1)) = true → y = true) ∧ (y = true → relaxes1 (g (k + j + 1)) = false) := by
      intro k x y hk
      have hkp : k ≤ periods := by
        have := (List.getElem?_eq_some_iff.mp hk).1
        omega
      rw [l2 k hkp] at hk
      split at hk
      · exact ⟨hkp, c3 _ x y hk⟩
      · rename_i hh
        cases hk
        have := hslack (k + j + 1 - periods) (by omega) (by omega)
        rw [show periods + (k + j + 1 - periods) = k + j + 1 by omega] at this
        simp [this, hkp]
    have hm : mismatch (ravelF (nextDates^[j + 1] h))
        (tests periods binds0 (fun k => g (k + j + 1)) ++ tests periods binds1 fun k => g (k + j + 1))
        (tests periods relaxes0 (fun k => g (k + j + 1)) ++ tests periods relaxes1 fun k => g (k + j + 1)) =
          false := by
      unfold ravelF
      rw [mismatch_append (b1 _ _) (b1 _ _), Bool.or_eq_false_iff, mismatch_false (b1 _ _) (b1 _ _),
        mismatch_false (b1 _ _) (b1 _ _)]
      have hk1 : ∀ {t : (Nat → V) → Bool} {k : Nat} {b : Bool},
          (tests periods t fun k => g (k + j + 1))[k]? = some b →
          ∃ x y, (nextDates^[j + 1] h)[k]? = some (x, y) ∧ t (g (k + j + 1)) = b := by
        intro t k b hk
        have hkp : k ≤ periods := by
          have := (List.getElem?_eq_some_iff.mp hk).1
          rw [tests_length] at this; omega
        rw [tests_get hkp] at hk
        obtain ⟨⟨x, y⟩, e⟩ : ∃ z, (nextDates^[j + 1] h)[k]? = some z := ⟨_, List.getElem?_eq_getElem (by omega)⟩
        exact ⟨x, y, e, Option.some.inj hk⟩
      refine ⟨⟨?_, ?_⟩, ?_, ?_⟩
      · intro k hk
        obtain ⟨x, y, e, hb⟩ := hk1 hk
        rw [List.getElem?_map, e, Option.map_some, (hget k x y e).2.1 hb]
      · intro k hk
        rw [List.getElem?_map, Option.map_eq_some_iff] at hk
        obtain ⟨⟨x, y⟩, e, e'⟩ := hk
        rw [tests_get (hget k x y e).1, (hget k x y e).2.2.1 e']
      · intro k hk
        obtain ⟨x, y, e, hb⟩ := hk1 hk
        rw [List.getElem?_map, e, Option.map_some, (hget k x y e).2.2.2.1 hb]
      · intro k hk
        rw [List.getElem?_map, Option.map_eq_some_iff] at hk
        obtain ⟨⟨x, y⟩, e, e'⟩ := hk
        rw [tests_get (hget k x y e).1, (hget k x y e).2.2.2.2 e']
    rw [if_neg (by rw [hm]; simp), updateTwo_same (len _ _ _ _ l1) (len _ _ _ _ l1) hm]
  obtain ⟨rows, -, r⟩ := fillRest_zeros (periods := periods) ha hs
  exact ⟨_, r 0 (by omega) fun j hj => absurd hj (by omega), r q hq hz⟩

/-! ### C137: longer horizons -/

/-- **C137, one constraint** (partial: on none of the paths looked at may the constraint bind from the last period of
the shorter horizon on).  Then a longer horizon gives the same path, continued. -/
theorem C137_one_partial (la : LinAlg V) (gy gu : Arr V) (ref alt : Regime V) (binds relaxes : (Nat → V) → Bool)
    (periods d maxIter : Nat) (init : Nat → V) (shocks rows : List (Nat → V)) (hp : 0 < periods)
    (hlen : shocks.length ≤ periods)
    (hquiet : ∀ g, ConsideredOne la gy gu ref alt binds relaxes periods maxIter init shocks g →
      ∀ k, periods - 1 ≤ k → k ≤ periods + d → binds (g k) = false)
    (h : occbinOne la gy gu ref alt binds relaxes periods maxIter init shocks = .ok rows) :
    ∃ more, more.length = d ∧
      occbinOne la gy gu ref alt binds relaxes (periods + d) maxIter init shocks = .ok (rows ++ more) := by
  let R : List Bool → List Bool → Prop := fun h h' => h' = h ++ List.replicate d false ∧ h.length = periods + 1 ∧
    h[periods - 1]? = some false ∧ h[periods]? = some false
  have key := shockLoop_sim (shocks := shocks) (h0 := List.replicate (periods + 1) false) (init := init)
    (solve := solveOne la gy gu ref alt binds relaxes periods maxIter)
    (solve' := solveOne la gy gu ref alt binds relaxes (periods + d) maxIter) (periods := periods)
    (periods' := periods + d) (shift := nextDate) (shift' := nextDate) R (by
      rintro h _ ⟨rfl, h1, h2, h3⟩
      refine ⟨?_, nextDate_length h1, ?_, ?_⟩
      · unfold nextDate
        rw [List.drop_append_of_le_length (by omega), List.append_assoc, List.append_assoc, ← List.replicate_succ',
          List.singleton_append, ← List.replicate_succ]
      · rw [nextDate_one h1 (by omega), if_pos (by omega), show periods - 1 + 1 = periods by omega, h3]
      · rw [nextDate_one h1 (by omega), if_neg (by omega)]) (by
      intro pre s post h h' x hpre ha hr
      unfold solveOne at ha ⊢
      refine guessLoop_sim (h0 := h) R ?_ maxIter h h' none .first hr
      rintro h2 _ ht ⟨rfl, h1, e1, e2⟩
      have hs := hypothesized_longer (la := la) (gy := gy) (gu := gu) (ref := ref) (alt := alt) (init := x) (u := s)
        (d := d) h1 hp e1 e2
      refine ⟨hs, fun g hg => ?_⟩
      have hq := hquiet g ⟨pre, s, post, h, x, h2, hpre, ha, ht, hg⟩
      have hb : ∀ t : (Nat → V) → Bool, (tests periods t g).length = h2.length := fun t => by rw [tests_length, h1]
      have hz : ∀ x ∈ (List.range d).map (fun k => binds (g (periods + 1 + k))), x = false := by
        intro x hx
        obtain ⟨k, hk, rfl⟩ := List.mem_map.mp hx
        have := List.mem_range.mp hk
        exact hq _ (by omega) (by omega)
      refine ⟨?_, ?_, ?_, ?_, ?_⟩
      · rw [tests_more, tests_more, mismatch_append (hb _) (hb _),
          mismatch_slack (h := List.replicate d false) hz fun x hx => (List.mem_replicate.mp hx).2, Bool.or_false]
      · rw [tests_more, tests_more, updateHypo_append (hb _) (hb _), updateHypo_quiet (by simp) (by simp) hz]
      · rw [updateHypo_length (hb _) (hb _), h1]
      · rw [updateHypo_get e1 (tests_get (by omega)) (tests_get (by omega)), hq _ (by omega) (by omega)]; rfl
      · rw [updateHypo_get e2 (tests_get (by omega)) (tests_get (by omega)), hq _ (by omega) (by omega)]; rfl)
    shocks [] 0 (List.replicate (periods + 1) false) (List.replicate (periods + d + 1) false) init none rfl .start
    ⟨by rw [← List.replicate_add]; congr 1; omega, by simp, by
      rw [List.getElem?_replicate, if_pos (by omega)], by rw [List.getElem?_replicate, if_pos (by omega)]⟩
    (by omega) (by omega)
  unfold occbinOne at h ⊢
  obtain ⟨⟨rs, last⟩, hl, h⟩ := Except.bind_eq_ok h
  have e : (shockLoop (periods + d) (solveOne la gy gu ref alt binds relaxes (periods + d) maxIter)
    (fun h => h.drop 1 ++ [false]) shocks 0 (List.replicate (periods + d + 1) false) init none) = .ok (rs, last) :=
    key.trans hl
  rw [bind_ok_of_eq _ e]
  obtain ⟨-, -, -, guess, path, -, j2, -⟩ := shockLoop_rows _ _ _ _ _ hl
  exact fillRest_longer h hlen hp fun hne => ⟨_, j2 fun hc => hne (by rw [hc]; rfl)⟩

/-- **C137, two constraints** (partial, as for one). -/
theorem C137_two_partial (la : LinAlg V) (gy gu : Arr V) (ref alt0 alt1 dbl : Regime V)
    (binds0 relaxes0 binds1 relaxes1 : (Nat → V) → Bool) (restrained : Bool) (periods d maxIter : Nat)
    (init : Nat → V) (shocks rows : List (Nat → V)) (hp : 0 < periods) (hlen : shocks.length ≤ periods)
    (hquiet : ∀ g, ConsideredTwo la gy gu ref alt0 alt1 dbl binds0 relaxes0 binds1 relaxes1 periods maxIter init
      shocks g → ∀ k, periods - 1 ≤ k → k ≤ periods + d → binds0 (g k) = false ∧ binds1 (g k) = false)
    (h : occbinTwo la gy gu ref alt0 alt1 dbl binds0 relaxes0 binds1 relaxes1 restrained periods maxIter init shocks =
      .ok rows) :
    ∃ more, more.length = d ∧
      occbinTwo la gy gu ref alt0 alt1 dbl binds0 relaxes0 binds1 relaxes1 restrained (periods + d) maxIter init
        shocks = .ok (rows ++ more) := by
  let R : List (Bool × Bool) → List (Bool × Bool) → Prop := fun h h' =>
    h' = h ++ List.replicate d (false, false) ∧ h.length = periods + 1 ∧
    h[periods - 1]? = some (false, false) ∧ h[periods]? = some (false, false)
  have key := shockLoop_sim (shocks := shocks) (h0 := List.replicate (periods + 1) (false, false)) (init := init)
    (solve := solveTwo la gy gu ref alt0 alt1 dbl binds0 relaxes0 binds1 relaxes1 restrained periods maxIter)
    (solve' := solveTwo la gy gu ref alt0 alt1 dbl binds0 relaxes0 binds1 relaxes1 restrained (periods + d) maxIter)
    (periods := periods) (periods' := periods + d) (shift := nextDates) (shift' := nextDates) R (by
      rintro h _ ⟨rfl, h1, h2, h3⟩
      refine ⟨?_, nextDates_length h1, ?_, ?_⟩
      · unfold nextDates
        rw [List.drop_append_of_le_length (by omega), List.append_assoc, List.append_assoc, ← List.replicate_succ',
          List.singleton_append, ← List.replicate_succ]
      · rw [nextDates_one h1 (by omega), if_pos (by omega), show periods - 1 + 1 = periods by omega, h3]
      · rw [nextDates_one h1 (by omega), if_neg (by omega)]) (by
      intro pre s post h h' x hpre ha hr
      unfold solveTwo at ha ⊢
      simp only [updateRestrained_eq, ite_self] at ha ⊢
      refine guessLoop_sim (h0 := h) R ?_ maxIter h h' none .first hr
      rintro h2 _ ht ⟨rfl, h1, e1, e2⟩
      have hs := hypothesizedTwo_longer (la := la) (gy := gy) (gu := gu) (ref := ref) (alt0 := alt0) (alt1 := alt1)
        (dbl := dbl) (init := x) (u := s) (d := d) h1 hp e1 e2
      refine ⟨hs, fun g hg => ?_⟩
      have hq := hquiet g ⟨pre, s, post, h, x, h2, hpre, ha, ht, hg⟩
      have hb : ∀ t : (Nat → V) → Bool, (tests periods t g).length = h2.length := fun t => by rw [tests_length, h1]
      have hbm : ∀ (f : Bool × Bool → Bool) (t : (Nat → V) → Bool), (tests periods t g).length = (h2.map f).length :=
        fun f t => by rw [List.length_map]; exact hb t
      have hbl : ∀ t : (Nat → V) → Bool, (tests (periods + d) t g).length =
          (h2 ++ List.replicate d (false, false)).length := fun t => by rw [tests_length]; simp; omega
      have hblm : ∀ (f : Bool × Bool → Bool) (t : (Nat → V) → Bool), (tests (periods + d) t g).length =
          ((h2 ++ List.replicate d (false, false)).map f).length := fun f t => by rw [List.length_map]; exact hbl t
      have hz0 : ∀ x ∈ (List.range d).map (fun k => binds0 (g (periods + 1 + k))), x = false := by
        intro x hx
        obtain ⟨k, hk, rfl⟩ := List.mem_map.mp hx
        have := List.mem_range.mp hk
        exact (hq _ (by omega) (by omega)).1
      have hz1 : ∀ x ∈ (List.range d).map (fun k => binds1 (g (periods + 1 + k))), x = false := by
        intro x hx
        obtain ⟨k, hk, rfl⟩ := List.mem_map.mp hx
        have := List.mem_range.mp hk
        exact (hq _ (by omega) (by omega)).2
      have hnone : ∀ x ∈ List.replicate d false, x = false := fun x hx => (List.mem_replicate.mp hx).2
      refine ⟨?_, ?_, ?_, ?_, ?_⟩
      · unfold ravelF
        rw [mismatch_append (hblm _ _) (hblm _ _), mismatch_append (hbm _ _) (hbm _ _), List.map_append,
          List.map_append, List.map_replicate, List.map_replicate, tests_more, tests_more, tests_more, tests_more,
          mismatch_append (hbm _ _) (hbm _ _), mismatch_append (hbm _ _) (hbm _ _), mismatch_slack hz0 hnone,
          mismatch_slack hz1 hnone, Bool.or_false, Bool.or_false]
      · rw [updateTwo_split (hbl _) (hbl _) (hbl _) (hbl _), updateTwo_split (hb _) (hb _) (hb _) (hb _),
          List.map_append, List.map_append, List.map_replicate, List.map_replicate, tests_more, tests_more, tests_more,
          tests_more, updateHypo_append (hbm _ _) (hbm _ _), updateHypo_append (hbm _ _) (hbm _ _),
          updateHypo_quiet (by simp) (by simp) hz0, updateHypo_quiet (by simp) (by simp) hz1,
          List.zip_append (by rw [updateHypo_length (hbm _ _) (hbm _ _), updateHypo_length (hbm _ _) (hbm _ _)]; simp),
          List.zip_replicate']
      · rw [updateTwo_split (hb _) (hb _) (hb _) (hb _), List.length_zip, updateHypo_length (hbm _ _) (hbm _ _),
          updateHypo_length (hbm _ _) (hbm _ _)]
        simp [h1]
      · rw [updateTwo_split (hb _) (hb _) (hb _) (hb _)]
        exact zip_get (updateHypo_calm (hm := e1) (f := Prod.fst) (by omega) (hq _ (by omega) (by omega)).1)
          (updateHypo_calm (hm := e1) (f := Prod.snd) (by omega) (hq _ (by omega) (by omega)).2)
      · rw [updateTwo_split (hb _) (hb _) (hb _) (hb _)]
        exact zip_get (updateHypo_calm (hm := e2) (f := Prod.fst) (by omega) (hq _ (by omega) (by omega)).1)
          (updateHypo_calm (hm := e2) (f := Prod.snd) (by omega) (hq _ (by omega) (by omega)).2))
    shocks [] 0 (List.replicate (periods + 1) (false, false)) (List.replicate (periods + d + 1) (false, false)) init
    none rfl .start
    ⟨by rw [← List.replicate_add]; congr 1; omega, by simp, by
      rw [List.getElem?_replicate, if_pos (by omega)], by rw [List.getElem?_replicate, if_pos (by omega)]⟩
    (by omega) (by omega)
  unfold occbinTwo at h ⊢
  obtain ⟨⟨rs, last⟩, hl, h⟩ := Except.bind_eq_ok h
  have e : (shockLoop (periods + d) (solveTwo la gy gu ref alt0 alt1 dbl binds0 relaxes0 binds1 relaxes1 restrained
    (periods + d) maxIter) (fun h => h.drop 1 ++ [(false, false)]) shocks 0
      (List.replicate (periods + d + 1) (false, false)) init none) = .ok (rs, last) := key.trans hl
  rw [bind_ok_of_eq _ e]
  obtain ⟨-, -, -, guess, path, -, j2, -⟩ := shockLoop_rows _ _ _ _ _ hl
  exact fillRest_longer h hlen hp fun hne => ⟨_, j2 fun hc => hne (by rw [hc]; rfl)⟩

/-! ### C138: a second constraint that never binds -/

/-- **C138** (partial: on none of the paths looked at may the first constraint bind in the last period of the horizon or
the one after).  A second constraint that binds on none of the paths looked at makes no difference: the two-constraint
solution is the one-constraint solution. -/
theorem C138_slack_partial (la : LinAlg V) (gy gu : Arr V) (ref alt0 alt1 dbl : Regime V)
    (binds0 relaxes0 binds1 relaxes1 : (Nat → V) → Bool) (restrained : Bool) (periods maxIter : Nat)
    (init : Nat → V) (shocks : List (Nat → V)) (hp : 0 < periods) (hlen : shocks.length ≤ periods)
    (hquiet : ∀ g, ConsideredOne la gy gu ref alt0 binds0 relaxes0 periods maxIter init shocks g →
      binds0 (g (periods - 1)) = false ∧ binds0 (g periods) = false ∧ ∀ k ≤ periods, binds1 (g k) = false) :
    occbinTwo la gy gu ref alt0 alt1 dbl binds0 relaxes0 binds1 relaxes1 restrained periods maxIter init shocks =
      occbinOne la gy gu ref alt0 binds0 relaxes0 periods maxIter init shocks := by
  let R : List Bool → List (Bool × Bool) → Prop := fun h h' =>
    h' = h.map (fun x => (x, false)) ∧ h.length = periods + 1 ∧ h[periods - 1]? = some false ∧ h[periods]? = some false
  have key := shockLoop_sim (shocks := shocks) (h0 := List.replicate (periods + 1) false) (init := init)
    (solve := solveOne la gy gu ref alt0 binds0 relaxes0 periods maxIter)
    (solve' := solveTwo la gy gu ref alt0 alt1 dbl binds0 relaxes0 binds1 relaxes1 restrained periods maxIter)
    (periods := periods) (periods' := periods) (shift := nextDate) (shift' := nextDates) R (by
      rintro h _ ⟨rfl, h1, h2, h3⟩
      refine ⟨?_, nextDate_length h1, ?_, ?_⟩
      · unfold nextDates nextDate
        simp
      · rw [nextDate_one h1 (by omega), if_pos (by omega), show periods - 1 + 1 = periods by omega, h3]
      · rw [nextDate_one h1 (by omega), if_neg (by omega)]) (by
      intro pre s post h h' x hpre ha hr
      unfold solveOne at ha ⊢
      unfold solveTwo
      simp only [updateRestrained_eq, ite_self]
      refine guessLoop_sim (h0 := h) R ?_ maxIter h h' none .first hr
      rintro h2 _ ht ⟨rfl, h1, e1, e2⟩
      refine ⟨hypothesizedTwo_slack h1 hp e1, fun g hg => ?_⟩
      obtain ⟨q1, q2, q3⟩ := hquiet g ⟨pre, s, post, h, x, h2, hpre, ha, ht, hg⟩
      have hb : ∀ t : (Nat → V) → Bool, (tests periods t g).length = h2.length := fun t => by rw [tests_length, h1]
      have hbm : ∀ t : (Nat → V) → Bool, (tests periods t g).length = (h2.map fun x => (x, false)).length :=
        fun t => by rw [List.length_map]; exact hb t
      have hfst : (h2.map fun x => (x, false)).map Prod.fst = h2 := by simp [Function.comp_def]
      have hsnd : (h2.map fun x => (x, false)).map Prod.snd = List.replicate (periods + 1) false := by
        rw [List.map_map, ← h1]
        exact List.map_const' ..
      have hz : ∀ x ∈ tests periods binds1 g, x = false := by
        intro x hx
        obtain ⟨k, hk, rfl⟩ := List.mem_map.mp hx
        have := List.mem_range.mp hk
        exact q3 _ (by omega)
      refine ⟨?_, ?_, ?_, ?_, ?_⟩
      · unfold ravelF
        rw [hfst, hsnd, mismatch_append (hb _) (hb _),
          mismatch_slack hz fun x hx => (List.mem_replicate.mp hx).2, Bool.or_false]
      · rw [updateTwo_split (hbm _) (hbm _) (hbm _) (hbm _), hfst, hsnd,
          updateHypo_quiet (tests_length _ _ _) (tests_length _ _ _) hz]
        exact zip_const (by rw [updateHypo_length (hb _) (hb _), h1])
      · rw [updateHypo_length (hb _) (hb _), h1]
      · rw [updateHypo_get e1 (tests_get (by omega)) (tests_get (by omega)), q1]; rfl
      · rw [updateHypo_get e2 (tests_get (by omega)) (tests_get (by omega)), q2]; rfl)
    shocks [] 0 (List.replicate (periods + 1) false) (List.replicate (periods + 1) (false, false)) init none rfl .start
    ⟨by simp, by simp, by
      rw [List.getElem?_replicate, if_pos (by omega)], by rw [List.getElem?_replicate, if_pos (by omega)]⟩
    (by omega) (by omega)
  unfold occbinTwo occbinOne
  have e : (shockLoop periods (solveTwo la gy gu ref alt0 alt1 dbl binds0 relaxes0 binds1 relaxes1 restrained
    periods maxIter) (fun h => h.drop 1 ++ [(false, false)]) shocks 0
      (List.replicate (periods + 1) (false, false)) init none) =
    (shockLoop periods (solveOne la gy gu ref alt0 binds0 relaxes0 periods maxIter) (fun h => h.drop 1 ++ [false])
      shocks 0 (List.replicate (periods + 1) false) init none) := key
  rw [e]

/-! ### C139: the order of constraints -/

/-- **C139** (partial: on none of the paths looked at may a constraint bind in the last period of the horizon or the
one after).  The order of the two constraints, with their regimes, does not matter. -/
theorem C139_order_partial (la : LinAlg V) (gy gu : Arr V) (ref alt0 alt1 dbl : Regime V)
    (binds0 relaxes0 binds1 relaxes1 : (Nat → V) → Bool) (restrained : Bool) (periods maxIter : Nat)
    (init : Nat → V) (shocks : List (Nat → V)) (hp : 0 < periods) (hlen : shocks.length ≤ periods)
    (hquiet : ∀ g, ConsideredTwo la gy gu ref alt0 alt1 dbl binds0 relaxes0 binds1 relaxes1 periods maxIter init
      shocks g → ∀ k, periods - 1 ≤ k → k ≤ periods → binds0 (g k) = false ∧ binds1 (g k) = false) :
    occbinTwo la gy gu ref alt1 alt0 dbl binds1 relaxes1 binds0 relaxes0 restrained periods maxIter init shocks =
      occbinTwo la gy gu ref alt0 alt1 dbl binds0 relaxes0 binds1 relaxes1 restrained periods maxIter init shocks := by
  let R : List (Bool × Bool) → List (Bool × Bool) → Prop := fun h h' => h' = h.map Prod.swap ∧
    h.length = periods + 1 ∧ h[periods - 1]? = some (false, false) ∧ h[periods]? = some (false, false)
  have key := shockLoop_sim (shocks := shocks) (h0 := List.replicate (periods + 1) (false, false)) (init := init)
    (solve := solveTwo la gy gu ref alt0 alt1 dbl binds0 relaxes0 binds1 relaxes1 restrained periods maxIter)
    (solve' := solveTwo la gy gu ref alt1 alt0 dbl binds1 relaxes1 binds0 relaxes0 restrained periods maxIter)
    (periods := periods) (periods' := periods) (shift := nextDates) (shift' := nextDates) R (by
      rintro h _ ⟨rfl, h1, h2, h3⟩
      refine ⟨?_, nextDates_length h1, ?_, ?_⟩
      · unfold nextDates
        simp
      · rw [nextDates_one h1 (by omega), if_pos (by omega), show periods - 1 + 1 = periods by omega, h3]
      · rw [nextDates_one h1 (by omega), if_neg (by omega)]) (by
      intro pre s post h h' x hpre ha hr
      unfold solveTwo at ha ⊢
      simp only [updateRestrained_eq, ite_self] at ha ⊢
      refine guessLoop_sim (h0 := h) R ?_ maxIter h h' none .first hr
      rintro h2 _ ht ⟨rfl, h1, e1, e2⟩
      refine ⟨hypothesizedTwo_swap h1 hp e1, fun g hg => ?_⟩
      have hq := hquiet g ⟨pre, s, post, h, x, h2, hpre, ha, ht, hg⟩
      have hb : ∀ t : (Nat → V) → Bool, (tests periods t g).length = h2.length := fun t => by rw [tests_length, h1]
      have hbm : ∀ (f : Bool × Bool → Bool) (t : (Nat → V) → Bool), (tests periods t g).length = (h2.map f).length :=
        fun f t => by rw [List.length_map]; exact hb t
      have hbs : ∀ t : (Nat → V) → Bool, (tests periods t g).length = (h2.map Prod.swap).length :=
        fun t => by rw [List.length_map]; exact hb t
      have hfst : (h2.map Prod.swap).map Prod.fst = h2.map Prod.snd := by simp [Function.comp_def]
      have hsnd : (h2.map Prod.swap).map Prod.snd = h2.map Prod.fst := by simp [Function.comp_def]
      refine ⟨?_, ?_, ?_, ?_, ?_⟩
      · unfold ravelF
        rw [hfst, hsnd, mismatch_append (hbm _ _) (hbm _ _), mismatch_append (hbm _ _) (hbm _ _), Bool.or_comm]
      · rw [updateTwo_split (hbs _) (hbs _) (hbs _) (hbs _), updateTwo_split (hb _) (hb _) (hb _) (hb _), hfst, hsnd]
        exact (List.zip_swap _ _).symm
      · rw [updateTwo_split (hb _) (hb _) (hb _) (hb _), List.length_zip, updateHypo_length (hbm _ _) (hbm _ _),
          updateHypo_length (hbm _ _) (hbm _ _)]
        simp [h1]
      · rw [updateTwo_split (hb _) (hb _) (hb _) (hb _)]
        exact zip_get (updateHypo_calm (hm := e1) (f := Prod.fst) (by omega) (hq _ (by omega) (by omega)).1)
          (updateHypo_calm (hm := e1) (f := Prod.snd) (by omega) (hq _ (by omega) (by omega)).2)
      · rw [updateTwo_split (hb _) (hb _) (hb _) (hb _)]
        exact zip_get (updateHypo_calm (hm := e2) (f := Prod.fst) (by omega) (hq _ (by omega) (by omega)).1)
          (updateHypo_calm (hm := e2) (f := Prod.snd) (by omega) (hq _ (by omega) (by omega)).2))
    shocks [] 0 (List.replicate (periods + 1) (false, false)) (List.replicate (periods + 1) (false, false)) init
    none rfl .start
    ⟨by simp, by simp, by
      rw [List.getElem?_replicate, if_pos (by omega)], by rw [List.getElem?_replicate, if_pos (by omega)]⟩
    (by omega) (by omega)
  unfold occbinTwo
  have e : (shockLoop periods (solveTwo la gy gu ref alt1 alt0 dbl binds1 relaxes1 binds0 relaxes0 restrained
    periods maxIter) (fun h => h.drop 1 ++ [(false, false)]) shocks 0
      (List.replicate (periods + 1) (false, false)) init none) =
    (shockLoop periods (solveTwo la gy gu ref alt0 alt1 dbl binds0 relaxes0 binds1 relaxes1 restrained
    periods maxIter) (fun h => h.drop 1 ++ [(false, false)]) shocks 0
      (List.replicate (periods + 1) (false, false)) init none) := key
  rw [e]

/-! ### C140: solving again -/

/-- **C140, failures**.  A call that fails leaves the object as it was. -/
theorem C140_failed (la : LinAlg V) (gy gu : Arr V) (o : OccObj V) (periods : Option Nat) (maxIter : Nat)
    (restrained : Bool) (e : Err) (h : (o.solve la gy gu periods maxIter restrained).2 = .error e) :
    (o.solve la gy gu periods maxIter restrained).1 = o := by
  unfold OccObj.solve at h ⊢
  split at h <;> rename_i hr
  · simp
  · cases h

/-- the numbers of rows and shocks -/
theorem run_sizes {la : LinAlg V} {gy gu : Arr V} {o : OccObj V} {periods maxIter : Nat} {restrained : Bool}
    {rows : List (Nat → V)} (hr : o.run la gy gu periods maxIter restrained = .ok rows) :
    rows.length = periods ∧ o.shocks.length ≤ periods := by
  unfold OccObj.run at hr
  split at hr
  · split at hr
    · exact rows_sizes hr
    · cases hr
  · split at hr
    · split at hr
      · exact rows_sizes hr
      · cases hr
    · cases hr

/-- **C140, what is kept**.  A call that succeeds keeps the paths it returns, and changes nothing else but the shocks:
zeros are appended until there is a shock for each period. -/
theorem C140_kept (la : LinAlg V) (gy gu : Arr V) (o o' : OccObj V) (periods : Option Nat) (maxIter : Nat)
    (restrained : Bool) (rows : List (Nat → V))
    (h : o.solve la gy gu periods maxIter restrained = (o', .ok rows)) :
    o'.paths = some rows ∧ o'.regimes = o.regimes ∧ o'.tests = o.tests ∧ o'.init = o.init ∧
      rows.length = o.periods periods ∧ o'.shocks.length = o.periods periods ∧
      ∀ t, o'.shocks[t]? = if t < o.shocks.length then o.shocks[t]? else
        if t < o.periods periods then some (fun _ => 0) else none := by
  unfold OccObj.solve at h
  split at h <;> rename_i hr
  · cases h
  · cases h
    have hrun := run_sizes hr
    refine ⟨rfl, rfl, rfl, rfl, hrun.1, by simp; omega, fun t => ?_⟩
    simp only
    rw [List.getElem?_append]
    split
    · rfl
    · rw [List.getElem?_replicate]
      by_cases ht : t < o.periods periods
      · rw [if_pos ht, if_pos (by omega)]
      · rw [if_neg ht, if_neg (by omega)]

/-- **C140** (partial: as many shocks as periods, as there are if no number of periods is given).  Solving again gives
the same paths, and leaves the object as the first call left it. -/
theorem C140_again_partial (la : LinAlg V) (gy gu : Arr V) (o o' : OccObj V) (periods : Option Nat) (maxIter : Nat)
    (restrained : Bool) (rows : List (Nat → V)) (hn : o.shocks.length = o.periods periods)
    (h : o.solve la gy gu periods maxIter restrained = (o', .ok rows)) :
    o'.solve la gy gu periods maxIter restrained = (o', .ok rows) := by
  unfold OccObj.solve at h
  split at h <;> rename_i hr
  · cases h
  · cases h
    have e : OccObj.mk o.regimes o.tests (o.shocks ++ List.replicate (o.periods periods - o.shocks.length) fun _ => 0)
        o.init (some rows) = { o with paths := some rows } := by
      rw [hn]; simp
    rw [e]
    unfold OccObj.solve
    have e2 : ({ o with paths := some rows } : OccObj V).periods periods = o.periods periods := by
      unfold OccObj.periods; rfl
    have e3 : ({ o with paths := some rows } : OccObj V).run la gy gu (o.periods periods) maxIter restrained =
        o.run la gy gu (o.periods periods) maxIter restrained := rfl
    rw [e2, e3, hr]
    simp only [hn, Nat.sub_self, List.replicate_zero, List.append_nil]

/-- **C140, one constraint** (partial: more periods than shocks, with the hypotheses of C136).  Solving again gives the
same paths, though shocks of zero have been appended. -/
theorem C140_one_partial (la : LinAlg V) (gy gu : Arr V) (o o' : OccObj V) (n maxIter : Nat) (restrained : Bool)
    (rows : List (Nat → V)) (ref alt : Regime V) (others : List (Regime V)) (c : RowTest V) (hn : 0 < n)
    (hr : o.regimes = ref :: alt :: others) (ht : o.tests = [c]) (ss : List (Nat → V)) (s x : Nat → V)
    (h0 h1 : List Bool) (g : Nat → Nat → V) (hsh : o.shocks = ss ++ [s])
    (ha : Arrives (solveOne la gy gu ref alt c.binds c.relaxes n maxIter) nextDate (List.replicate (n + 1) false)
      o.init ss h0 x)
    (hs : solveOne la gy gu ref alt c.binds c.relaxes n maxIter x s h0 = .ok (h1, some g, false))
    (hend : h1[n - 1]? = some false) (hend2 : h1[n]? = some false)
    (hslack : ∀ j, 0 < j → j ≤ n - o.shocks.length → c.binds (g (n + j)) = false)
    (h : o.solve la gy gu (some n) maxIter restrained = (o', .ok rows)) :
    o'.solve la gy gu (some n) maxIter restrained = (o', .ok rows) := by
  have hper : ∀ o : OccObj V, o.periods (some n) = n := by
    intro o; obtain ⟨k, rfl⟩ : ∃ k, n = k + 1 := ⟨n - 1, by omega⟩
    rfl
  have hk := C140_kept la gy gu o o' (some n) maxIter restrained rows h
  rw [hper] at hk
  obtain ⟨k1, k2, k3, k4, k5, k6, -⟩ := hk
  unfold OccObj.solve at h
  rw [hper] at h
  split at h <;> rename_i hrun
  · cases h
  · cases h
    have hle := (run_sizes hrun).2
    have hlen : o.shocks.length = ss.length + 1 := by rw [hsh]; simp
    obtain ⟨rows', r1, r2⟩ := C136_one_partial la gy gu ref alt c.binds c.relaxes n maxIter o.init ss s x h0 h1 g
      (n - o.shocks.length) (by omega) ha hs hend hend2 hslack
    unfold OccObj.run at hrun
    rw [ht, hr, hsh] at hrun
    simp only at hrun
    rw [r1] at hrun
    cases hrun
    unfold OccObj.solve
    rw [hper]
    have e : (OccObj.mk o.regimes o.tests (o.shocks ++ List.replicate (n - o.shocks.length) fun _ => 0) o.init
        (some rows)).run la gy gu n maxIter restrained = .ok rows := by
      unfold OccObj.run
      simp only [ht, hr]
      rw [← r2, hsh, List.append_assoc]
      rfl
    rw [e]
    simp only at k6 ⊢
    rw [k6, Nat.sub_self]
    simp

/-- **C140, two constraints** (partial, as for one). -/
theorem C140_two_partial (la : LinAlg V) (gy gu : Arr V) (o o' : OccObj V) (n maxIter : Nat) (restrained : Bool)
    (rows : List (Nat → V)) (ref alt0 alt1 dbl : Regime V) (others : List (Regime V)) (c d : RowTest V) (hn : 0 < n)
    (hr : o.regimes = ref :: alt0 :: alt1 :: dbl :: others) (ht : o.tests = [c, d]) (ss : List (Nat → V))
    (s x : Nat → V) (h0 h1 : List (Bool × Bool)) (g : Nat → Nat → V) (hsh : o.shocks = ss ++ [s])
    (ha : Arrives (solveTwo la gy gu ref alt0 alt1 dbl c.binds c.relaxes d.binds d.relaxes restrained n maxIter)
      nextDates (List.replicate (n + 1) (false, false)) o.init ss h0 x)
    (hs : solveTwo la gy gu ref alt0 alt1 dbl c.binds c.relaxes d.binds d.relaxes restrained n maxIter x s h0 =
      .ok (h1, some g, false))
    (hend : h1[n - 1]? = some (false, false)) (hend2 : h1[n]? = some (false, false))
    (hslack : ∀ j, 0 < j → j ≤ n - o.shocks.length → c.binds (g (n + j)) = false ∧ d.binds (g (n + j)) = false)
    (h : o.solve la gy gu (some n) maxIter restrained = (o', .ok rows)) :
    o'.solve la gy gu (some n) maxIter restrained = (o', .ok rows) := by
  have hper : ∀ o : OccObj V, o.periods (some n) = n := by
    intro o; obtain ⟨k, rfl⟩ : ∃ k, n = k + 1 := ⟨n - 1, by omega⟩
    rfl
  have hk := C140_kept la gy gu o o' (some n) maxIter restrained rows h
  rw [hper] at hk
  obtain ⟨k1, k2, k3, k4, k5, k6, -⟩ := hk
  unfold OccObj.solve at h
  rw [hper] at h
  split at h <;> rename_i hrun
  · cases h
  · cases h
    have hle := (run_sizes hrun).2
    have hlen : o.shocks.length = ss.length + 1 := by rw [hsh]; simp
    obtain ⟨rows', r1, r2⟩ := C136_two_partial la gy gu ref alt0 alt1 dbl c.binds c.relaxes d.binds d.relaxes restrained
      n maxIter o.init ss s x h0 h1 g (n - o.shocks.length) (by omega) ha hs hend hend2 hslack
    unfold OccObj.run at hrun
    rw [ht, hr, hsh] at hrun
    simp only at hrun
    rw [r1] at hrun
    cases hrun
    unfold OccObj.solve
    rw [hper]
    have e : (OccObj.mk o.regimes o.tests (o.shocks ++ List.replicate (n - o.shocks.length) fun _ => 0) o.init
        (some rows)).run la gy gu n maxIter restrained = .ok rows := by
      unfold OccObj.run
      simp only [ht, hr]
      rw [← r2, hsh, List.append_assoc]
      rfl
    rw [e]
    simp only at k6 ⊢
    rw [k6, Nat.sub_self]
    simp

/-! ### C141: numbers of constraints and regimes -/

/-- **C141** (partial: more regimes than needed are accepted as well).  Only objects with one constraint and two regimes,
or with two constraints and four regimes, are solved. -/
theorem C141_enough_partial (la : LinAlg V) (gy gu : Arr V) (o : OccObj V) (periods : Option Nat) (maxIter : Nat)
    (restrained : Bool) (rows : List (Nat → V))
    (h : (o.solve la gy gu periods maxIter restrained).2 = .ok rows) :
    o.tests.length = 1 ∧ 2 ≤ o.regimes.length ∨ o.tests.length = 2 ∧ 4 ≤ o.regimes.length := by
  unfold OccObj.solve at h
  split at h <;> rename_i hr
  · cases h
  · unfold OccObj.run at hr
    split at hr
    · rename_i c hc
      split at hr
      · rename_i hg
        left; rw [hc, hg]; simp
      · cases hr
    · split at hr
      · rename_i hg
        split at hr
        · rename_i hc
          right; rw [hc, hg]; simp
        · cases hr
      · cases hr

/-- **C141, the errors**.  Where regimes are missing `IndexError` is raised; with enough regimes, no constraint or more
than two raise `ValueError`. -/
theorem C141_errors (la : LinAlg V) (gy gu : Arr V) (o : OccObj V) (periods : Option Nat) (maxIter : Nat)
    (restrained : Bool) :
    (o.tests.length = 1 → o.regimes.length < 2 →
      (o.solve la gy gu periods maxIter restrained).2 = .error .indexError) ∧
    (o.tests.length ≠ 1 → o.regimes.length < 4 →
      (o.solve la gy gu periods maxIter restrained).2 = .error .indexError) ∧
    (o.tests.length ≠ 1 → o.tests.length ≠ 2 → 4 ≤ o.regimes.length →
      (o.solve la gy gu periods maxIter restrained).2 = .error .valueError) := by
  obtain ⟨regimes, cs, shocks, init, paths⟩ := o
  refine ⟨fun h1 h2 => ?_, fun h1 h2 => ?_, fun h1 h2 h3 => ?_⟩
  · obtain ⟨c, rfl⟩ := List.length_eq_one_iff.mp h1
    match regimes, h2 with
    | [], _ => rfl
    | [_], _ => rfl
  · match cs, h1 with
    | [], _ | _ :: _ :: _, _ =>
      match regimes, h2 with
      | [], _ => rfl
      | [_], _ => rfl
      | [_, _], _ => rfl
      | [_, _, _], _ => rfl
  · match regimes, h3 with
    | _ :: _ :: _ :: _ :: _, _ =>
      match cs, h1, h2 with
      | [], _, _ => rfl
      | _ :: _ :: _ :: _, _, _ => rfl

/-- **C141, regimes left over**.  Regimes beyond those needed change nothing. -/
theorem C141_ignored (la : LinAlg V) (gy gu : Arr V) (o : OccObj V) (more : List (Regime V)) (periods : Option Nat)
    (maxIter : Nat) (restrained : Bool)
    (hr : o.tests.length = 1 ∧ 2 ≤ o.regimes.length ∨ o.tests.length = 2 ∧ 4 ≤ o.regimes.length) :
    (({ o with regimes := o.regimes ++ more } : OccObj V).solve la gy gu periods maxIter restrained).2 =
      (o.solve la gy gu periods maxIter restrained).2 := by
  obtain ⟨regimes, cs, shocks, init, paths⟩ := o
  have key : ∀ n, ({ regimes := regimes ++ more, tests := cs, shocks, init, paths } : OccObj V).run la gy gu n maxIter
      restrained = ({ regimes, tests := cs, shocks, init, paths } : OccObj V).run la gy gu n maxIter restrained := by
    intro n
    rcases hr with ⟨h1, h2⟩ | ⟨h1, h2⟩
    · obtain ⟨c, rfl⟩ := List.length_eq_one_iff.mp h1
      match regimes, h2 with
      | _ :: _ :: _, _ => rfl
    · obtain ⟨c, d, rfl⟩ := List.length_eq_two.mp h1
      match regimes, h2 with
      | _ :: _ :: _ :: _ :: _, _ => rfl
  unfold OccObj.solve
  have e : ({ regimes := regimes ++ more, tests := cs, shocks, init, paths } : OccObj V).periods periods =
    ({ regimes, tests := cs, shocks, init, paths } : OccObj V).periods periods := by unfold OccObj.periods; rfl
  simp only
  rw [e, key]
  cases ({ regimes, tests := cs, shocks, init, paths } : OccObj V).run la gy gu
    (({ regimes, tests := cs, shocks, init, paths } : OccObj V).periods periods) maxIter restrained <;> rfl

/-! ### examples and refutations -/

/-- the search for the first date, for a shock for which the floor binds in two periods -/
theorem ot_first : ∃ path, solveOne obLa obGy obGu obRef obAlt obBinds (fun _ => false) 4 10 (fun _ => 0)
      (vecOf [1/2, -3]) (List.replicate 5 false) = .ok ([true, true, false, false, false], some path, false) ∧
      ∀ j, 0 < j → j ≤ 3 → obBinds (path (4 + j)) = false := by
  obtain ⟨⟨h, p, c⟩, hs, h'⟩ := ok_of_check (x := solveOne obLa obGy obGu obRef obAlt obBinds (fun _ => false)
    4 10 (fun _ => 0) (vecOf [1/2, -3]) (List.replicate 5 false))
    (p := fun r => decide (r.1 = [true, true, false, false, false]) && !r.2.2 &&
      match r.2.1 with
      | some path => decide (obBinds (path 5) = false ∧ obBinds (path 6) = false ∧ obBinds (path 7) = false)
      | none => false) (by decide +kernel)
  simp only [Bool.and_eq_true, decide_eq_true_eq, Bool.not_eq_true'] at h'
  obtain ⟨⟨rfl, rfl⟩, h3⟩ := h'
  cases p with
  | none => cases h3
  | some path =>
    obtain ⟨a, b, c⟩ := of_decide_eq_true h3
    refine ⟨path, hs, fun j h1 h2 => ?_⟩
    match j, h1, h2 with
    | 1, _, _ => exact a
    | 2, _, _ => exact b
    | 3, _, _ => exact c

/-- the hypotheses of C136 are met -/
example : ∃ rows, occbinOne obLa obGy obGu obRef obAlt obBinds (fun _ => false) 4 10 (fun _ => 0)
      [vecOf [1/2, -3]] = .ok rows ∧
    occbinOne obLa obGy obGu obRef obAlt obBinds (fun _ => false) 4 10 (fun _ => 0)
      (vecOf [1/2, -3] :: List.replicate 3 fun _ => 0) = .ok rows := by
  obtain ⟨path, h, hs⟩ := ot_first
  exact C136_one_partial obLa obGy obGu obRef obAlt obBinds (fun _ => false) 4 10 (fun _ => 0) [] (vecOf [1/2, -3])
    (fun _ => 0) _ _ path 3 (by simp) .start h rfl rfl hs

/-- the search for the first date with two constraints: for a large shock the cap binds as well -/
theorem ot_firstTwo : ∃ path, solveTwo obLa obGy obGu obRef obAlt otCap otBoth obBinds (fun _ => false) otHigh
      (fun _ => false) false 6 10 (fun _ => 0) (vecOf [5, -3]) (List.replicate 7 (false, false)) =
        .ok ([(true, true), (true, true), (false, true), (false, false), (false, false), (false, false),
          (false, false)], some path, false) ∧
      ∀ j, 0 < j → j ≤ 2 → obBinds (path (6 + j)) = false ∧ otHigh (path (6 + j)) = false := by
  obtain ⟨⟨h, p, c⟩, hs, h'⟩ := ok_of_check (x := solveTwo obLa obGy obGu obRef obAlt otCap otBoth obBinds
      (fun _ => false) otHigh (fun _ => false) false 6 10 (fun _ => 0) (vecOf [5, -3])
      (List.replicate 7 (false, false)))
    (p := fun r => decide (r.1 = [(true, true), (true, true), (false, true), (false, false), (false, false),
        (false, false), (false, false)]) && !r.2.2 &&
      match r.2.1 with
      | some path => decide ((obBinds (path 7) = false ∧ otHigh (path 7) = false) ∧
          obBinds (path 8) = false ∧ otHigh (path 8) = false)
      | none => false) (by decide +kernel)
  simp only [Bool.and_eq_true, decide_eq_true_eq, Bool.not_eq_true'] at h'
  obtain ⟨⟨rfl, rfl⟩, h3⟩ := h'
  cases p with
  | none => cases h3
  | some path =>
    obtain ⟨a, b⟩ := of_decide_eq_true h3
    refine ⟨path, hs, fun j h1 h2 => ?_⟩
    match j, h1, h2 with
    | 1, _, _ => exact a
    | 2, _, _ => exact b

/-- the hypotheses of C136 for two constraints are met -/
example : ∃ rows, occbinTwo obLa obGy obGu obRef obAlt otCap otBoth obBinds (fun _ => false) otHigh
      (fun _ => false) false 6 10 (fun _ => 0) [vecOf [5, -3]] = .ok rows ∧
    occbinTwo obLa obGy obGu obRef obAlt otCap otBoth obBinds (fun _ => false) otHigh
      (fun _ => false) false 6 10 (fun _ => 0) (vecOf [5, -3] :: List.replicate 2 fun _ => 0) = .ok rows := by
  obtain ⟨path, h, hs⟩ := ot_firstTwo
  exact C136_two_partial obLa obGy obGu obRef obAlt otCap otBoth obBinds (fun _ => false) otHigh (fun _ => false) false
    6 10 (fun _ => 0) [] (vecOf [5, -3]) (fun _ => 0) _ _ path 2 (by simp) .start h rfl rfl hs

/-- **C136, as stated, is false**: with the decision rules of the reference regime, a shock of four and a horizon of three
periods, appending a shock of zero changes the second row. -/
theorem C136_false : ¬ ∀ (alt : Regime ℚ) (binds relaxes : (Nat → ℚ) → Bool) (periods maxIter : Nat) (init : Nat → ℚ)
    (shocks rows : List (Nat → ℚ)) (q : Nat), alt.Fits 2 2 → 0 < shocks.length → shocks.length + q ≤ periods →
    occbinOne obLa obGy obGu obRef alt binds relaxes periods maxIter init shocks = .ok rows →
    occbinOne obLa obGy obGu obRef alt binds relaxes periods maxIter init
      (shocks ++ List.replicate q fun _ => 0) = .ok rows := by
  intro h
  obtain ⟨rows, hr, h1⟩ := ok_of_check (x := occbinOne obLa obGy obGu obRef otJump otLow (fun _ => false) 3 20
    (fun _ => 0) [vecOf [0, 4]]) (p := fun r => decide (r.map (fun y => y 1) = [2, 3/2, 9/8])) (by decide +kernel)
  obtain ⟨rows', hr', h2⟩ := ok_of_check (x := occbinOne obLa obGy obGu obRef otJump otLow (fun _ => false) 3 20
    (fun _ => 0) ([vecOf [0, 4]] ++ List.replicate 1 fun _ => 0))
    (p := fun r => decide (r.map (fun y => y 1) = [2, 52/11, 10])) (by decide +kernel)
  have := h otJump otLow (fun _ => false) 3 20 (fun _ => 0) _ rows 1
    ⟨⟨rfl, rfl⟩, ⟨rfl, rfl⟩, ⟨rfl, rfl⟩, ⟨rfl, rfl⟩⟩ (by simp) (by simp) hr
  rw [hr'] at this
  cases this
  have := (of_decide_eq_true h1).symm.trans (of_decide_eq_true h2)
  revert this
  decide +kernel

/-- the hypotheses of C137 are met: the floor binds in two periods, a horizon of four or six periods -/
example : ∃ rows more, more.length = 2 ∧
    occbinOne obLa obGy obGu obRef obAlt obBinds (fun _ => false) 4 10 (fun _ => 0) [vecOf [1/2, -3]] = .ok rows ∧
    occbinOne obLa obGy obGu obRef obAlt obBinds (fun _ => false) 6 10 (fun _ => 0) [vecOf [1/2, -3]] =
      .ok (rows ++ more) := by
  obtain ⟨rows, hr, -⟩ := ok_of_check (x := occbinOne obLa obGy obGu obRef obAlt obBinds (fun _ => false) 4 10
    (fun _ => 0) [vecOf [1/2, -3]]) (p := fun _ => true) (by decide +kernel)
  obtain ⟨more, h1, h2⟩ := C137_one_partial obLa obGy obGu obRef obAlt obBinds (fun _ => false) 4 2 10 (fun _ => 0)
    [vecOf [1/2, -3]] rows (by omega) (by simp) (by
      intro g hg k k1 k2
      have := allPass_considered (p := fun g => !obBinds (g 3) && !obBinds (g 4) && !obBinds (g 5) && !obBinds (g 6))
        5 (by decide +kernel) hg
      simp only [Bool.and_eq_true, Bool.not_eq_true'] at this
      obtain ⟨⟨⟨a, b⟩, c⟩, d⟩ := this
      match k, k1, k2 with
      | 3, _, _ => exact a
      | 4, _, _ => exact b
      | 5, _, _ => exact c
      | 6, _, _ => exact d) hr
  exact ⟨rows, more, h1, hr, h2⟩

/-- the hypotheses of C137 and C139 for two constraints are met: both bind -/
theorem ot_quiet (g : Nat → Nat → ℚ) (hg : ConsideredTwo obLa obGy obGu obRef obAlt otCap otBoth obBinds
    (fun _ => false) otHigh (fun _ => false) 6 10 (fun _ => 0) [vecOf [5, -3]] g) (k : Nat) (k1 : 5 ≤ k) (k2 : k ≤ 7) :
    obBinds (g k) = false ∧ otHigh (g k) = false := by
  have := allPass_considered (p := fun g => decide ((obBinds (g 5) = false ∧ otHigh (g 5) = false) ∧
    (obBinds (g 6) = false ∧ otHigh (g 6) = false) ∧ (obBinds (g 7) = false ∧ otHigh (g 7) = false)))
    6 (by decide +kernel) hg
  obtain ⟨a, b, c⟩ := of_decide_eq_true this
  match k, k1, k2 with
  | 5, _, _ => exact a
  | 6, _, _ => exact b
  | 7, _, _ => exact c

example : ∃ rows more, more.length = 1 ∧
    occbinTwo obLa obGy obGu obRef obAlt otCap otBoth obBinds (fun _ => false) otHigh (fun _ => false) false 6 10
      (fun _ => 0) [vecOf [5, -3]] = .ok rows ∧
    occbinTwo obLa obGy obGu obRef obAlt otCap otBoth obBinds (fun _ => false) otHigh (fun _ => false) false 7 10
      (fun _ => 0) [vecOf [5, -3]] = .ok (rows ++ more) := by
  obtain ⟨rows, hr, -⟩ := ok_of_check (x := occbinTwo obLa obGy obGu obRef obAlt otCap otBoth obBinds (fun _ => false)
    otHigh (fun _ => false) false 6 10 (fun _ => 0) [vecOf [5, -3]]) (p := fun _ => true) (by decide +kernel)
  obtain ⟨more, h1, h2⟩ := C137_two_partial obLa obGy obGu obRef obAlt otCap otBoth obBinds (fun _ => false)
    otHigh (fun _ => false) false 6 1 10 (fun _ => 0) [vecOf [5, -3]] rows (by omega) (by simp) ot_quiet hr
  exact ⟨rows, more, h1, hr, h2⟩

/-- **C137, as stated, is false**: with a shock of four the first row is 2 with a horizon of three periods, and 336/97 with
one of four. -/
theorem C137_false : ¬ ∀ (alt : Regime ℚ) (binds relaxes : (Nat → ℚ) → Bool) (periods d maxIter : Nat)
    (init : Nat → ℚ) (shocks rows : List (Nat → ℚ)), alt.Fits 2 2 → 0 < periods → shocks.length ≤ periods →
    occbinOne obLa obGy obGu obRef alt binds relaxes periods maxIter init shocks = .ok rows →
    ∃ more, occbinOne obLa obGy obGu obRef alt binds relaxes (periods + d) maxIter init shocks =
      .ok (rows ++ more) := by
  intro h
  obtain ⟨rows, hr, h1⟩ := ok_of_check (x := occbinOne obLa obGy obGu obRef otJump otLow (fun _ => false) 3 20
    (fun _ => 0) [vecOf [0, 4]]) (p := fun r => decide (r.map (fun y => y 1) = [2, 3/2, 9/8])) (by decide +kernel)
  obtain ⟨rows', hr', h2⟩ := ok_of_check (x := occbinOne obLa obGy obGu obRef otJump otLow (fun _ => false) (3 + 1) 20
    (fun _ => 0) [vecOf [0, 4]])
    (p := fun r => decide (r.map (fun y => y 1) = [336/97, 536/97, 10, 15/2])) (by decide +kernel)
  obtain ⟨more, this⟩ := h otJump otLow (fun _ => false) 3 1 20 (fun _ => 0) _ rows
    ⟨⟨rfl, rfl⟩, ⟨rfl, rfl⟩, ⟨rfl, rfl⟩, ⟨rfl, rfl⟩⟩ (by omega) (by simp) hr
  rw [hr'] at this
  cases this
  have e := of_decide_eq_true h2
  rw [List.map_append, of_decide_eq_true h1] at e
  have e := congrArg (fun l => l[0]?) e
  simp only [List.cons_append, List.getElem?_cons_zero, Option.some.injEq] at e
  norm_num at e

/-- the hypotheses of C138 are met: a small shock to `b` -/
example : occbinTwo obLa obGy obGu obRef obAlt otCap otBoth obBinds (fun _ => false) otHigh (fun _ => false) false 4 10
      (fun _ => 0) [vecOf [1/2, -3]] =
    occbinOne obLa obGy obGu obRef obAlt obBinds (fun _ => false) 4 10 (fun _ => 0) [vecOf [1/2, -3]] :=
  C138_slack_partial obLa obGy obGu obRef obAlt otCap otBoth obBinds (fun _ => false) otHigh (fun _ => false) false 4 10
    (fun _ => 0) [vecOf [1/2, -3]] (by omega) (by simp) (by
      intro g hg
      have := allPass_considered (p := fun g => decide (obBinds (g 3) = false ∧ obBinds (g 4) = false ∧
        otHigh (g 0) = false ∧ otHigh (g 1) = false ∧ otHigh (g 2) = false ∧ otHigh (g 3) = false ∧
        otHigh (g 4) = false)) 5 (by decide +kernel) hg
      obtain ⟨a, b, c0, c1, c2, c3, c4⟩ := of_decide_eq_true this
      refine ⟨a, b, fun k hk => ?_⟩
      match k, hk with
      | 0, _ => exact c0
      | 1, _ => exact c1
      | 2, _ => exact c2
      | 3, _ => exact c3
      | 4, _ => exact c4)

/-- **C138, as stated, is false**: a second constraint that never binds changes the solution. -/
theorem C138_false : ∃ a b : List (Nat → ℚ), a.map (fun y => y 1) = [52/11, 10, 15/2] ∧
    b.map (fun y => y 1) = [3/2, 9/8, 27/32] ∧
    occbinOne obLa obGy obGu obRef otJump otLow (fun _ => false) 3 20 (fun _ => 0) [vecOf [0, 3]] = .ok a ∧
    occbinTwo obLa obGy obGu obRef otJump otFall otFall otLow (fun _ => false) (fun _ => false) (fun _ => false) false
      3 20 (fun _ => 0) [vecOf [0, 3]] = .ok b := by
  obtain ⟨a, ha, h1⟩ := ok_of_check (x := occbinOne obLa obGy obGu obRef otJump otLow (fun _ => false) 3 20
    (fun _ => 0) [vecOf [0, 3]]) (p := fun r => decide (r.map (fun y => y 1) = [52/11, 10, 15/2])) (by decide +kernel)
  obtain ⟨b, hb, h2⟩ := ok_of_check (x := occbinTwo obLa obGy obGu obRef otJump otFall otFall otLow (fun _ => false)
    (fun _ => false) (fun _ => false) false 3 20 (fun _ => 0) [vecOf [0, 3]])
    (p := fun r => decide (r.map (fun y => y 1) = [3/2, 9/8, 27/32])) (by decide +kernel)
  exact ⟨a, b, of_decide_eq_true h1, of_decide_eq_true h2, ha, hb⟩

/-- the hypotheses of C139 are met: both constraints bind -/
example : occbinTwo obLa obGy obGu obRef otCap obAlt otBoth otHigh (fun _ => false) obBinds (fun _ => false) false 6 10
      (fun _ => 0) [vecOf [5, -3]] =
    occbinTwo obLa obGy obGu obRef obAlt otCap otBoth obBinds (fun _ => false) otHigh (fun _ => false) false 6 10
      (fun _ => 0) [vecOf [5, -3]] :=
  C139_order_partial obLa obGy obGu obRef obAlt otCap otBoth obBinds (fun _ => false) otHigh (fun _ => false) false 6 10
    (fun _ => 0) [vecOf [5, -3]] (by omega) (by simp) fun g hg k k1 k2 => ot_quiet g hg k k1 (by omega)

/-- **C139, as stated, is false**: the order matters in the example of C138. -/
theorem C139_false : ∃ a b : List (Nat → ℚ), a.map (fun y => y 1) = [52/11, 10, 15/2] ∧
    b.map (fun y => y 1) = [3/2, 9/8, 27/32] ∧
    occbinTwo obLa obGy obGu obRef otFall otJump otFall (fun _ => false) (fun _ => false) otLow (fun _ => false) false
      3 20 (fun _ => 0) [vecOf [0, 3]] = .ok a ∧
    occbinTwo obLa obGy obGu obRef otJump otFall otFall otLow (fun _ => false) (fun _ => false) (fun _ => false) false
      3 20 (fun _ => 0) [vecOf [0, 3]] = .ok b := by
  obtain ⟨a, ha, h1⟩ := ok_of_check (x := occbinTwo obLa obGy obGu obRef otFall otJump otFall (fun _ => false)
    (fun _ => false) otLow (fun _ => false) false 3 20 (fun _ => 0) [vecOf [0, 3]])
    (p := fun r => decide (r.map (fun y => y 1) = [52/11, 10, 15/2])) (by decide +kernel)
  obtain ⟨-, b, -, h2, -, hb⟩ := C138_false
  exact ⟨a, b, of_decide_eq_true h1, h2, ha, hb⟩

/-- an object with the floor -/
def otObj : OccObj ℚ :=
  { regimes := [obRef, obAlt]
    tests := [⟨obBinds, fun _ => false⟩]
    shocks := [vecOf [1/2, -3]]
    init := fun _ => 0
    paths := none }

/-- the hypotheses of C140 for one constraint are met: four periods, one shock -/
example : ∃ o' rows, otObj.solve obLa obGy obGu (some 4) 10 false = (o', .ok rows) ∧
    o'.shocks.length = 4 ∧ o'.solve obLa obGy obGu (some 4) 10 false = (o', .ok rows) := by
  obtain ⟨rows, hr, -⟩ := ok_of_check (x := (otObj.solve obLa obGy obGu (some 4) 10 false).2) (p := fun _ => true)
    (by decide +kernel)
  obtain ⟨path, h, hs⟩ := ot_first
  have e : otObj.solve obLa obGy obGu (some 4) 10 false =
    ((otObj.solve obLa obGy obGu (some 4) 10 false).1, .ok rows) := by rw [← hr]
  exact ⟨_, rows, e, (C140_kept _ _ _ _ _ _ _ _ _ e).2.2.2.2.2.1,
    C140_one_partial obLa obGy obGu otObj _ 4 10 false rows obRef obAlt [] ⟨obBinds, fun _ => false⟩ (by omega) rfl rfl
      [] (vecOf [1/2, -3]) (fun _ => 0) _ _ path rfl .start h rfl rfl hs e⟩

/-- and those of C140 for as many shocks as periods: no number of periods is given -/
example : ∃ o' rows, otObj.shocks.length = otObj.periods none ∧
    otObj.solve obLa obGy obGu none 10 false = (o', .ok rows) := by
  obtain ⟨rows, hr, -⟩ := ok_of_check (x := (otObj.solve obLa obGy obGu none 10 false).2) (p := fun _ => true)
    (by decide +kernel)
  exact ⟨_, rows, rfl, by rw [← hr]⟩

/-- an object with the floor and the cap -/
def otObjTwo : OccObj ℚ :=
  { regimes := [obRef, obAlt, otCap, otBoth]
    tests := [⟨obBinds, fun _ => false⟩, ⟨otHigh, fun _ => false⟩]
    shocks := [vecOf [5, -3]]
    init := fun _ => 0
    paths := none }

/-- after a call for four periods the object cannot be solved for three: too many shocks -/
example : ((otObj.solve obLa obGy obGu (some 4) 10 false).1.solve obLa obGy obGu (some 3) 10 false).2 =
    .error .indexError ∧ ∃ rows, (otObj.solve obLa obGy obGu (some 3) 10 false).2 = .ok rows := by
  obtain ⟨rows, hr, -⟩ := ok_of_check (x := (otObj.solve obLa obGy obGu (some 3) 10 false).2) (p := fun _ => true)
    (by decide +kernel)
  refine ⟨?_, rows, hr⟩
  generalize hx : ((otObj.solve obLa obGy obGu (some 4) 10 false).1.solve obLa obGy obGu (some 3) 10 false).2 = x
  have : (match ((otObj.solve obLa obGy obGu (some 4) 10 false).1.solve obLa obGy obGu (some 3) 10 false).2 with
    | .error .indexError => true
    | _ => false) = true := by decide +kernel
  rw [hx] at this
  split at this
  · rfl
  · cases this

/-- **C140, as stated, is false**: with a shock of four and a horizon of three periods the second call gives another
path than the first. -/
theorem C140_false : ¬ ∀ (o o' : OccObj ℚ) (periods : Option Nat) (rows : List (Nat → ℚ)),
    o.solve obLa obGy obGu periods 20 false = (o', .ok rows) →
    (o'.solve obLa obGy obGu periods 20 false).2 = .ok rows := by
  intro h
  let o : OccObj ℚ := ⟨[obRef, otJump], [⟨otLow, fun _ => false⟩], [vecOf [0, 4]], fun _ => 0, none⟩
  obtain ⟨rows, hr, h1⟩ := ok_of_check (x := (o.solve obLa obGy obGu (some 3) 20 false).2)
    (p := fun r => decide (r.map (fun y => y 1) = [2, 3/2, 9/8])) (by decide +kernel)
  obtain ⟨rows', hr', h2⟩ := ok_of_check
    (x := ((o.solve obLa obGy obGu (some 3) 20 false).1.solve obLa obGy obGu (some 3) 20 false).2)
    (p := fun r => decide (r.map (fun y => y 1) = [2, 52/11, 752/121])) (by decide +kernel)
  have := h o _ (some 3) rows (by rw [← hr])
  rw [hr'] at this
  cases this
  have := (of_decide_eq_true h1).symm.trans (of_decide_eq_true h2)
  revert this
  decide +kernel

/-- **C141, as stated, is false**: an object with one constraint and four regimes is solved, the last two being ignored. -/
theorem C141_false : ¬ ∀ (o : OccObj ℚ) (periods : Option Nat) (rows : List (Nat → ℚ)),
    (o.solve obLa obGy obGu periods 20 false).2 = .ok rows → o.regimes.length = 2 ^ o.tests.length := by
  intro h
  obtain ⟨rows, hr, -⟩ := ok_of_check (x := (({ otObj with regimes := otObj.regimes ++ [otCap, otBoth] } : OccObj ℚ).solve
    obLa obGy obGu (some 4) 20 false).2) (p := fun _ => true) (by decide +kernel)
  have := h _ _ _ hr
  revert this
  decide

/-- the hypotheses of C140 and C141 for two constraints are met -/
example : ∃ rows, (otObjTwo.solve obLa obGy obGu (some 6) 10 false).2 = .ok rows ∧ otObjTwo.tests.length = 2 ∧
    4 ≤ otObjTwo.regimes.length := by
  obtain ⟨rows, hr, -⟩ := ok_of_check (x := (otObjTwo.solve obLa obGy obGu (some 6) 10 false).2) (p := fun _ => true)
    (by decide +kernel)
  exact ⟨rows, hr, rfl, by decide⟩

example : ∃ o' rows, otObjTwo.solve obLa obGy obGu (some 6) 10 false = (o', .ok rows) ∧
    o'.solve obLa obGy obGu (some 6) 10 false = (o', .ok rows) := by
  obtain ⟨rows, hr, h1⟩ := ok_of_check (x := (otObjTwo.solve obLa obGy obGu (some 6) 10 false).2) (p := fun _ => true)
    (by decide +kernel)
  obtain ⟨⟨h, p, c⟩, hs, h'⟩ := ok_of_check (x := solveTwo obLa obGy obGu obRef obAlt otCap otBoth obBinds
      (fun _ => false) otHigh (fun _ => false) false 6 10 (fun _ => 0) (vecOf [5, -3])
      (List.replicate 7 (false, false)))
    (p := fun r => decide (r.1 = [(true, true), (true, true), (false, true), (false, false), (false, false),
        (false, false), (false, false)]) && !r.2.2 &&
      match r.2.1 with
      | some path => (List.range 5).all fun j => decide (obBinds (path (7 + j)) = false ∧ otHigh (path (7 + j)) = false)
      | none => false) (by decide +kernel)
  simp only [Bool.and_eq_true, decide_eq_true_eq, Bool.not_eq_true'] at h'
  obtain ⟨⟨rfl, rfl⟩, h3⟩ := h'
  cases p with
  | none => cases h3
  | some path =>
    simp only [List.all_eq_true, List.mem_range, decide_eq_true_eq] at h3
    refine ⟨_, rows, by rw [← hr], C140_two_partial obLa obGy obGu otObjTwo _ 6 10 false rows obRef obAlt otCap otBoth []
      ⟨obBinds, fun _ => false⟩ ⟨otHigh, fun _ => false⟩ (by omega) rfl rfl [] (vecOf [5, -3]) (fun _ => 0) _ _ path
      rfl .start hs rfl rfl (fun j j1 j2 => ?_) (by rw [← hr])⟩
    have e : otObjTwo.shocks.length = 1 := rfl
    have := h3 (j - 1) (by omega)
    rwa [show 7 + (j - 1) = 6 + j by omega] at this

#print axioms C136_one_partial
#print axioms C136_two_partial
#print axioms C137_one_partial
#print axioms C137_two_partial
#print axioms C138_slack_partial
#print axioms C139_order_partial
#print axioms C140_failed
#print axioms C140_kept
#print axioms C140_again_partial
#print axioms C140_one_partial
#print axioms C140_two_partial
#print axioms C141_enough_partial
#print axioms C141_errors
#print axioms C141_ignored
#print axioms C136_false
#print axioms C137_false
#print axioms C138_false
#print axioms C139_false
#print axioms C140_false
#print axioms C141_false

end Pynare
