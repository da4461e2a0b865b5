import Verif.Lemmas.OccBinPolicy
import Verif.Lemmas.OccBinLoop
import Verif.Examples.OccBin
/-!
# C57 to C61, C76 and C77: occasionally binding constraints
-/

namespace Pynare

variable {V : Type} [CommRing V]

set_option linter.unusedSectionVars false

/-! ### C57: where the regimes begin -/

/-- **C57** (partial: what happens in the last period is not looked at).  For every sequence that is not
empty the locator returns, in increasing order, exactly the positions before the last one at which a regime
begins (and position 0), with the regime that begins there. -/
theorem C57_located_partial (v : List Bool) (hv : v ≠ []) :
    ∃ s l, locateRegimes v = .ok (s, l) ∧ s.Pairwise (· < ·) ∧
      (∀ i, i ∈ s ↔ RegimeBegins v i ∧ (i = 0 ∨ i + 1 < v.length)) ∧
      l.map some = s.map fun i => v[i]? := by
  cases v with
  | nil => exact absurd rfl hv
  | cons v vs =>
    refine ⟨_, _, rfl, ?_, ?_, ?_⟩
    · rw [List.pairwise_cons]
      refine ⟨?_, locateFrom_sorted _ _ _⟩
      intro j hj
      obtain ⟨k, rfl, -, -⟩ := (locateFrom_mem _ _ _ _).mp hj
      omega
    · intro i
      rw [List.mem_cons, locateFrom_mem]
      unfold RegimeBegins
      constructor
      · rintro (rfl | ⟨k, rfl, hk, hne⟩)
        · simp
        · rw [List.length_dropLast] at hk
          rw [cons_dropLast_getElem?, cons_dropLast_getElem?, if_pos (Or.inr (by omega)),
            if_pos (Or.inr (by omega))] at hne
          refine ⟨⟨by simp; omega, Or.inr ?_⟩, Or.inr (by simp; omega)⟩
          rw [show 1 + k = k + 1 by omega]
          exact hne
      · rintro ⟨⟨h1, h2⟩, h3⟩
        by_cases h0 : i = 0
        · exact Or.inl h0
        · right
          have h2' := h2.resolve_left h0
          have h3' : i + 1 < vs.length + 1 := by simpa using h3.resolve_left h0
          refine ⟨i - 1, by omega, by rw [List.length_dropLast]; omega, ?_⟩
          rw [cons_dropLast_getElem?, cons_dropLast_getElem?, if_pos (Or.inr (by omega)),
            if_pos (Or.inr (by omega)), show i - 1 + 1 = i by omega]
          exact h2'
    · rw [List.map_cons, List.map_cons, locateFrom_regimes]
      congr 1
      refine List.map_congr_left fun j hj => ?_
      obtain ⟨k, rfl, hk, -⟩ := (locateFrom_mem _ _ _ _).mp hj
      rw [List.length_dropLast] at hk
      rw [show 1 + k - 1 = k by omega, show 1 + k = k + 1 by omega, List.getElem?_cons_succ,
        dropLast_getElem?, if_pos (by omega)]

/-- **C57, as stated, is false**: a regime that begins in the last period is not reported. -/
theorem C57_false : locateRegimes [false, false, true] = .ok ([0], [false]) ∧
    RegimeBegins [false, false, true] 2 := ⟨rfl, by unfold RegimeBegins; decide⟩

/-- non-trivial case -/
example : locateRegimes [true, false, false, true, true, false, false] =
    .ok ([0, 1, 3, 5], [true, false, true, false]) := rfl

/-! ### C60: the equations of the regimes -/

/-- **C60, one constraint** (partial: the guess must end in the reference regime).  Let the decision rules
solve the equations of the reference regime, and let the last period but one of the guess be in the
reference regime.  With exact linear algebra, the path computed for the guess satisfies in every period the
equations of the regime the guess says, with the constant of the alternative regime where it is in force. -/
theorem C60_one_partial (la : LinAlg V) (ex : la.Exact) (n m periods : Nat) (gy gu : Arr V)
    (hgy : gy.r = n ∧ gy.c = n) (hgu : gu.c = m) (ref alt : Regime V) (hr : ref.Fits n m)
    (ha : alt.Fits n m) (hsol : SolvesReference ref gy gu n m) (init u : Nat → V) (hypo : List Bool)
    (hl : hypo.length = periods + 1) (hp : 0 < periods) (hend : hypo[periods - 1]? = some false)
    (path : Nat → Nat → V) (h : hypothesized la gy gu ref alt init u hypo = .ok path) :
    SatisfiesRegimes n m periods (fun k => if hypo[k]? = some true then alt else ref)
      (fun k => if hypo[k]? = some true then alt.D else fun _ => 0) init u path := by
  obtain ⟨s, l, hloc, h1, h2, h3⟩ := locateRegimes_last hl hp hend
  unfold hypothesized at h
  rw [bind_ok_of_eq _ hloc] at h
  simp only at h
  generalize s.getLast?.getD 0 = start at h h1 h2 h3
  have hfit : ∀ k < start, (coefOne ref alt hypo (start - 1) k).Fits n m := by
    intro k _
    unfold coefOne
    split
    · exact ha
    · split
      · exact ha
      · exact ⟨hr.A, hr.B, hr.C, hr.E⟩
  have key := piecewise_satisfies ex hgy hgu hsol hfit h
  intro k hk i hi
  have := key k i hi
  by_cases hs : k < start
  · rw [if_pos hs, if_pos hs] at this
    unfold coefOne at this
    by_cases hlast : k = start - 1
    · have ht : hypo[k]? = some true := by rw [hlast]; exact h2 (by omega)
      simp only [if_pos ht]
      rw [if_pos hlast] at this
      exact this
    · rw [if_neg hlast] at this
      by_cases ht : hypo[k]? = some true
      · simp only [if_pos ht]
        rw [ht] at this
        exact this
      · simp only [if_neg ht]
        have : hypo[k]?.getD false = false := by
          cases hh : hypo[k]? with
          | none => rfl
          | some b => cases b with
            | false => rfl
            | true => exact absurd hh ht
        rename_i h'
        rw [this] at h'
        exact h'
  · rw [if_neg hs, if_neg hs] at this
    have ht : ¬ hypo[k]? = some true := by rw [h3 k (by omega) hk]; simp
    simp only [if_neg ht]
    exact this

/-- The regime of a pair of indicators. -/
def pairRegime (ref alt0 alt1 dbl : Regime V) : Option (Bool × Bool) → Regime V
  | some (true, true) => dbl
  | some (true, false) => alt0
  | some (false, true) => alt1
  | _ => ref

/-- The constant of a pair of indicators. -/
def pairConst (alt0 alt1 dbl : Regime V) : Option (Bool × Bool) → Nat → V
  | some (true, true) => dbl.D
  | some (true, false) => alt0.D
  | some (false, true) => alt1.D
  | _ => fun _ => 0

/-- **C60, two constraints** (partial: the guess must end in the reference regime).  As for one constraint,
with the regime in which the first, the second or both constraints bind. -/
theorem C60_two_partial (la : LinAlg V) (ex : la.Exact) (n m periods : Nat) (gy gu : Arr V)
    (hgy : gy.r = n ∧ gy.c = n) (hgu : gu.c = m) (ref alt0 alt1 dbl : Regime V) (hr : ref.Fits n m)
    (h0 : alt0.Fits n m) (h1 : alt1.Fits n m) (hd : dbl.Fits n m)
    (hsol : SolvesReference ref gy gu n m) (init u : Nat → V) (hypo : List (Bool × Bool))
    (hl : hypo.length = periods + 1) (hp : 0 < periods) (hend : hypo[periods - 1]? = some (false, false))
    (path : Nat → Nat → V) (h : hypothesizedTwo la gy gu ref alt0 alt1 dbl init u hypo = .ok path) :
    SatisfiesRegimes n m periods (fun k => pairRegime ref alt0 alt1 dbl hypo[k]?)
      (fun k => pairConst alt0 alt1 dbl hypo[k]?) init u path := by
  obtain ⟨s0, l0, e0, a1, a2, a3⟩ := locateRegimes_last (hypo := hypo.map Prod.fst) (p := periods)
    (by simpa using hl) hp (by rw [List.getElem?_map, hend]; rfl)
  obtain ⟨s1, l1, e1, b1, b2, b3⟩ := locateRegimes_last (hypo := hypo.map Prod.snd) (p := periods)
    (by simpa using hl) hp (by rw [List.getElem?_map, hend]; rfl)
  unfold hypothesizedTwo at h
  rw [bind_ok_of_eq _ e0] at h
  simp only at h
  rw [bind_ok_of_eq _ e1] at h
  simp only at h
  generalize s0.getLast?.getD 0 = st0 at h a1 a2 a3
  generalize s1.getLast?.getD 0 = st1 at h b1 b2 b3
  have hcoef : ∀ k < max st0 st1, coefTwo ref alt0 alt1 dbl hypo (max st0 st1 - 1) k =
      { pairRegime ref alt0 alt1 dbl hypo[k]? with D := pairConst alt0 alt1 dbl hypo[k]? } := by
    intro k hk
    have hk' : k < hypo.length := by omega
    unfold coefTwo
    rw [List.getElem?_eq_getElem hk']
    rcases hv : hypo[k] with ⟨x, y⟩
    cases x <;> cases y
    · by_cases hlast : k = max st0 st1 - 1
      · exfalso
        rcases Nat.le_total st0 st1 with hle | hle
        · rw [Nat.max_eq_right hle] at hlast hk
          have := b2 (by omega)
          rw [← hlast, List.getElem?_map, List.getElem?_eq_getElem hk', hv] at this
          simp at this
        · rw [Nat.max_eq_left hle] at hlast hk
          have := a2 (by omega)
          rw [← hlast, List.getElem?_map, List.getElem?_eq_getElem hk', hv] at this
          simp at this
      · simp [hlast, pairRegime, pairConst]
    · simp [pairRegime, pairConst]
    · simp [pairRegime, pairConst]
    · simp [pairRegime, pairConst]
  have hfit : ∀ k < max st0 st1, (coefTwo ref alt0 alt1 dbl hypo (max st0 st1 - 1) k).Fits n m := by
    intro k hk
    rw [hcoef k hk]
    have : (pairRegime ref alt0 alt1 dbl hypo[k]?).Fits n m := by
      unfold pairRegime
      split
      · exact hd
      · exact h0
      · exact h1
      · exact hr
    exact ⟨this.A, this.B, this.C, this.E⟩
  have key := piecewise_satisfies ex hgy hgu hsol hfit h
  intro k hk i hi
  have := key k i hi
  by_cases hs : k < max st0 st1
  · rw [if_pos hs, if_pos hs, hcoef k hs] at this
    exact this
  · rw [if_neg hs, if_neg hs] at this
    have hk' : k < hypo.length := by omega
    have c0 := a3 k (by omega) hk
    have c1 := b3 k (by omega) hk
    rw [List.getElem?_map, List.getElem?_eq_getElem hk'] at c0 c1
    have hv : hypo[k]? = some (false, false) := by
      rw [List.getElem?_eq_getElem hk']
      rcases hv : hypo[k] with ⟨x, y⟩
      rw [hv] at c0 c1
      simp at c0 c1
      rw [c0, c1]
    simp only [hv]
    exact this

/-! ### C58: consistency of an accepted path -/

/-- **C58, the test of the loop.** If the loop for one date stops on its own, then the path it returns was
computed from the guess it returns, and that guess agrees with the path in every period: wherever the
constraint binds along the path the guess is the alternative regime, and wherever the guess is the
alternative regime the path does not call for the reference regime. -/
theorem C58_consistent (la : LinAlg V) (gy gu : Arr V) (ref alt : Regime V)
    (binds relaxes : (Nat → V) → Bool) (periods maxIter : Nat) (init u : Nat → V) (h0 h : List Bool)
    (hl : h0.length = periods + 1) (g : Option (Nat → Nat → V))
    (hs : solveOne la gy gu ref alt binds relaxes periods maxIter init u h0 = .ok (h, g, false)) :
    ∃ path, g = some path ∧ hypothesized la gy gu ref alt init u h = .ok path ∧ h.length = periods + 1 ∧
      ∀ k ≤ periods, (binds (path k) = true → h[k]? = some true) ∧
        (h[k]? = some true → relaxes (path k) = false) := by
  unfold solveOne at hs
  obtain ⟨h1, g1, i1, i2, i3, i4, i5⟩ := guessLoop_stopped (fun h : List Bool => h.length = periods + 1)
    (fun h g hi => by
      rw [updateHypo_length (by rw [tests_length, hi]) (by rw [tests_length, hi])]; exact hi) _ _ _ hl hs
  have b1 : (tests periods binds g1).length = h1.length := by rw [tests_length, i1]
  have b2 : (tests periods relaxes g1).length = h1.length := by rw [tests_length, i1]
  rw [updateHypo_same b1 b2 i3] at i4
  subst i4
  obtain ⟨c1, c2⟩ := (mismatch_false b1 b2).mp i3
  refine ⟨g1, i5, i2, i1, ?_⟩
  intro k hk
  refine ⟨fun hb => c1 k (by rw [tests_get hk, hb]), fun hh => ?_⟩
  have := c2 k hh
  rw [tests_get hk] at this
  exact Option.some.inj this

/-- **C58** (partial: the accepted guess must end in the reference regime).  If moreover the decision rules
solve the reference regime and linear algebra is exact, the accepted path is a piecewise linear solution:
there are regimes for all periods such that the path satisfies their equations and calls for these very
regimes. -/
theorem C58_one_partial (la : LinAlg V) (ex : la.Exact) (n m periods maxIter : Nat) (gy gu : Arr V)
    (hgy : gy.r = n ∧ gy.c = n) (hgu : gu.c = m) (ref alt : Regime V) (hr : ref.Fits n m)
    (ha : alt.Fits n m) (hsol : SolvesReference ref gy gu n m) (binds relaxes : (Nat → V) → Bool)
    (init u : Nat → V) (h0 h : List Bool) (hl : h0.length = periods + 1) (hp : 0 < periods)
    (path : Nat → Nat → V)
    (hs : solveOne la gy gu ref alt binds relaxes periods maxIter init u h0 = .ok (h, some path, false))
    (hend : h[periods - 1]? = some false) :
    ∃ reg : Nat → Bool,
      SatisfiesRegimes n m periods (fun k => if reg k then alt else ref)
        (fun k => if reg k then alt.D else fun _ => 0) init u path ∧
      ∀ k < periods, (binds (path k) = true → reg k = true) ∧ (reg k = true → relaxes (path k) = false) := by
  obtain ⟨p, e, c1, c2, c3⟩ := C58_consistent la gy gu ref alt binds relaxes periods maxIter init u h0 h hl _ hs
  cases e
  have key := C60_one_partial la ex n m periods gy gu hgy hgu ref alt hr ha hsol init u h c2 hp hend path c1
  refine ⟨fun k => decide (h[k]? = some true), ?_, ?_⟩
  · intro k hk i hi
    have := key k hk i hi
    simp only [decide_eq_true_eq]
    exact this
  · intro k hk
    have := c3 k (by omega)
    exact ⟨fun hb => decide_eq_true (this.1 hb), fun hb => this.2 (of_decide_eq_true hb)⟩

/-- **C58, two constraints, the test of the loop.** The same for each of the two constraints. -/
theorem C58_two_consistent (la : LinAlg V) (gy gu : Arr V) (ref alt0 alt1 dbl : Regime V)
    (binds0 relaxes0 binds1 relaxes1 : (Nat → V) → Bool) (restrained : Bool) (periods maxIter : Nat)
    (init u : Nat → V) (h0 h : List (Bool × Bool)) (hl : h0.length = periods + 1)
    (g : Option (Nat → Nat → V))
    (hs : solveTwo la gy gu ref alt0 alt1 dbl binds0 relaxes0 binds1 relaxes1 restrained periods maxIter
      init u h0 = .ok (h, g, false)) :
    ∃ path, g = some path ∧ hypothesizedTwo la gy gu ref alt0 alt1 dbl init u h = .ok path ∧
      h.length = periods + 1 ∧
      ∀ (k : Nat) (x y : Bool), h[k]? = some (x, y) →
        (binds0 (path k) = true → x = true) ∧ (x = true → relaxes0 (path k) = false) ∧
        (binds1 (path k) = true → y = true) ∧ (y = true → relaxes1 (path k) = false) := by
  unfold solveTwo at hs
  simp only [updateRestrained_eq, ite_self] at hs
  have len : ∀ (t0 t1 : (Nat → V) → Bool) (g : Nat → Nat → V) (h : List (Bool × Bool)),
      h.length = periods + 1 → (tests periods t0 g ++ tests periods t1 g).length = 2 * h.length := by
    intro t0 t1 g h hh
    rw [List.length_append, tests_length, tests_length, hh]; omega
  obtain ⟨h1, g1, i1, i2, i3, i4, i5⟩ := guessLoop_stopped
    (fun h : List (Bool × Bool) => h.length = periods + 1)
    (fun h g hi => by rw [updateTwo_length (len _ _ _ _ hi) (len _ _ _ _ hi)]; exact hi) _ _ _ hl hs
  rw [updateTwo_same (len _ _ _ _ i1) (len _ _ _ _ i1) i3] at i4
  subst i4
  obtain ⟨c1, c2⟩ := (mismatch_false (by rw [ravelF_length]; exact len _ _ _ _ i1)
    (by rw [ravelF_length]; exact len _ _ _ _ i1)).mp i3
  refine ⟨g1, i5, i2, i1, ?_⟩
  intro k x y hk
  have hkl : k < h.length := (List.getElem?_eq_some_iff.mp hk).1
  have hkp : k ≤ periods := by omega
  have f0 : (ravelF h)[k]? = some x := by rw [ravelF_get_fst hkl, hk]; rfl
  have f1 : (ravelF h)[periods + 1 + k]? = some y := by
    rw [← i1, ravelF_get_snd, hk]; rfl
  have t0 : ∀ t t' : (Nat → V) → Bool, (tests periods t g1 ++ tests periods t' g1)[k]? = some (t (g1 k)) := by
    intro t t'
    rw [List.getElem?_append_left (by rw [tests_length]; omega), tests_get hkp]
  have t1 : ∀ t t' : (Nat → V) → Bool,
      (tests periods t g1 ++ tests periods t' g1)[periods + 1 + k]? = some (t' (g1 k)) := by
    intro t t'
    rw [List.getElem?_append_right (by rw [tests_length]; omega), tests_length,
      show periods + 1 + k - (periods + 1) = k by omega, tests_get hkp]
  have d1 := c1 k
  have d2 := c2 k
  have d3 := c1 (periods + 1 + k)
  have d4 := c2 (periods + 1 + k)
  rw [f0, t0] at d1 d2
  rw [f1, t1] at d3 d4
  simp only [Option.some.injEq] at d1 d2 d3 d4
  exact ⟨d1, d2, d3, d4⟩

/-- **C58, two constraints** (partial, as for one constraint). -/
theorem C58_two_partial (la : LinAlg V) (ex : la.Exact) (n m periods maxIter : Nat) (gy gu : Arr V)
    (hgy : gy.r = n ∧ gy.c = n) (hgu : gu.c = m) (ref alt0 alt1 dbl : Regime V) (hr : ref.Fits n m)
    (ha0 : alt0.Fits n m) (ha1 : alt1.Fits n m) (hd : dbl.Fits n m)
    (hsol : SolvesReference ref gy gu n m) (binds0 relaxes0 binds1 relaxes1 : (Nat → V) → Bool)
    (restrained : Bool) (init u : Nat → V) (h0 h : List (Bool × Bool)) (hl : h0.length = periods + 1)
    (hp : 0 < periods) (path : Nat → Nat → V)
    (hs : solveTwo la gy gu ref alt0 alt1 dbl binds0 relaxes0 binds1 relaxes1 restrained periods maxIter
      init u h0 = .ok (h, some path, false))
    (hend : h[periods - 1]? = some (false, false)) :
    ∃ reg0 reg1 : Nat → Bool,
      SatisfiesRegimes n m periods (fun k => pairRegime ref alt0 alt1 dbl (some (reg0 k, reg1 k)))
        (fun k => pairConst alt0 alt1 dbl (some (reg0 k, reg1 k))) init u path ∧
      ∀ k < periods,
        (binds0 (path k) = true → reg0 k = true) ∧ (reg0 k = true → relaxes0 (path k) = false) ∧
        (binds1 (path k) = true → reg1 k = true) ∧ (reg1 k = true → relaxes1 (path k) = false) := by
  obtain ⟨p, e, c1, c2, c3⟩ := C58_two_consistent la gy gu ref alt0 alt1 dbl binds0 relaxes0 binds1 relaxes1
    restrained periods maxIter init u h0 h hl _ hs
  cases e
  have key := C60_two_partial la ex n m periods gy gu hgy hgu ref alt0 alt1 dbl hr ha0 ha1 hd hsol init u h
    c2 hp hend path c1
  have get : ∀ k < periods, h[k]? = some ((h[k]?.getD (false, false)).1, (h[k]?.getD (false, false)).2) := by
    intro k hk
    rw [List.getElem?_eq_getElem (by omega)]; rfl
  refine ⟨fun k => (h[k]?.getD (false, false)).1, fun k => (h[k]?.getD (false, false)).2, ?_, ?_⟩
  · intro k hk i hi
    have := key k hk i hi
    simp only at this
    rw [get k hk] at this
    exact this
  · intro k hk
    exact c3 k _ _ (get k hk)

/-- **C58, the rows returned.** The row of a date with a shock is the first row of the path found for that
date, starting from the row before; the guess is carried over from date to date without its first period;
the rows after the last shock are the continuation of the last path. -/
theorem C58_rows (la : LinAlg V) (gy gu : Arr V) (ref alt : Regime V) (binds relaxes : (Nat → V) → Bool)
    (periods maxIter : Nat) (init : Nat → V) (shocks rows : List (Nat → V)) (hne : shocks ≠ [])
    (h : occbinOne la gy gu ref alt binds relaxes periods maxIter init shocks = .ok rows) :
    rows.length = periods ∧ shocks.length ≤ periods ∧
    ∃ (guess : Nat → List Bool) (path : Nat → Nat → Nat → V),
      guess 0 = List.replicate (periods + 1) false ∧
      (∀ t s, shocks[t]? = some s → rows[t]? = some (path t 0) ∧
        ∃ h' c, solveOne la gy gu ref alt binds relaxes periods maxIter
          (if t = 0 then init else path (t - 1) 0) s (guess t) = .ok (h', some (path t), c) ∧
          guess (t + 1) = h'.drop 1 ++ [false]) ∧
      ∀ k, shocks.length + k < periods → rows[shocks.length + k]? = some (path (shocks.length - 1) (k + 1)) := by
  unfold occbinOne at h
  obtain ⟨⟨rs, last⟩, hl, h⟩ := Except.bind_eq_ok h
  simp only at h
  obtain ⟨i1, -, i3, guess, path, j1, j2, j3⟩ := shockLoop_rows _ _ _ _ _ hl
  have hle := i3 hne
  rw [Nat.zero_add] at hle
  unfold fillRest at h
  rw [j2 hne] at h
  by_cases hlt : shocks.length < periods
  · rw [if_pos hlt] at h
    have := Except.ok.inj h
    subst this
    refine ⟨by simp [i1]; omega, hle, guess, path, j1, ?_, ?_⟩
    · intro t s ht
      obtain ⟨k1, k2⟩ := j3 t s ht
      refine ⟨?_, k2⟩
      rw [List.getElem?_append_left (by
        have := (List.getElem?_eq_some_iff.mp k1).1; exact this)]
      exact k1
    · intro k hk
      rw [List.getElem?_append_right (by omega), i1, show shocks.length + k - shocks.length = k by omega,
        List.getElem?_map, List.getElem?_range (by omega)]
      rfl
  · rw [if_neg hlt] at h
    have := Except.ok.inj h
    subst this
    refine ⟨by omega, hle, guess, path, j1, j3, ?_⟩
    intro k hk; omega

/-! ### C59: slack constraints -/

/-- **C59, one constraint.** If along the linear path expected at each date of the shocks (for as many
periods as are simulated, and one more) the constraint does not bind, then the result is the linear
solution.  No assumption on linear algebra is needed. -/
theorem C59_one (la : LinAlg V) (n m periods maxIter : Nat) (gy gu : Arr V) (hgy : gy.c = n) (hgu : gu.c = m)
    (ref alt : Regime V) (binds relaxes : (Nat → V) → Bool) (init : Nat → V) (shocks : List (Nat → V))
    (hpos : 0 < shocks.length) (hlen : shocks.length ≤ periods) (hiter : 0 < maxIter)
    (hslack : ∀ t s, shocks[t]? = some s → ∀ k ≤ periods,
      binds (linearPath n m gy gu (linearBefore n m gy gu init shocks t) s k) = false) :
    occbinOne la gy gu ref alt binds relaxes periods maxIter init shocks =
      .ok ((List.range periods).map (linearAt n m gy gu init shocks)) := by
  unfold occbinOne
  have := shockLoop_linear (periods := periods) (n := n) (m := m) (gy := gy) (gu := gu)
    (solve := solveOne la gy gu ref alt binds relaxes periods maxIter)
    (shift := fun h => h.drop 1 ++ [false]) (h0 := List.replicate (periods + 1) false)
    (by rw [List.drop_replicate, ← List.replicate_succ', Nat.add_sub_cancel]) shocks 0 init none
    (by omega) (by
      intro t s ht
      obtain ⟨it, rfl⟩ : ∃ it, maxIter = it + 1 := ⟨maxIter - 1, by omega⟩
      unfold solveOne
      rw [guessLoop]
      have hsim : hypothesized la gy gu ref alt (linearBefore n m gy gu init shocks t) s
          (List.replicate (periods + 1) false) =
          .ok (linearPath n m gy gu (linearBefore n m gy gu init shocks t) s) := by
        unfold hypothesized
        rw [bind_ok_of_eq _ (locateRegimes_replicate periods)]
        exact piecewise_linear hgy hgu _ _ _
      rw [bind_ok_of_eq _ hsim]
      have hm : mismatch (List.replicate (periods + 1) false)
          (tests periods binds (linearPath n m gy gu (linearBefore n m gy gu init shocks t) s))
          (tests periods relaxes (linearPath n m gy gu (linearBefore n m gy gu init shocks t) s)) = false := by
        refine mismatch_slack ?_ fun x hx => (List.mem_replicate.mp hx).2
        intro x hx
        unfold tests at hx
        obtain ⟨k, hk, rfl⟩ := List.mem_map.mp hx
        exact hslack t s ht k (by have := List.mem_range.mp hk; omega)
      rw [if_neg (by rw [hm]; simp), updateHypo_same (by rw [tests_length]; simp) (by rw [tests_length]; simp) hm])
  rw [bind_ok_of_eq _ this]
  have hne : shocks ≠ [] := List.length_pos_iff.mp hpos
  simp only
  rw [if_neg hne]
  exact fillRest_linear hpos hlen

/-- **C59, two constraints.** -/
theorem C59_two (la : LinAlg V) (n m periods maxIter : Nat) (gy gu : Arr V) (hgy : gy.c = n) (hgu : gu.c = m)
    (ref alt0 alt1 dbl : Regime V) (binds0 relaxes0 binds1 relaxes1 : (Nat → V) → Bool) (restrained : Bool)
    (init : Nat → V) (shocks : List (Nat → V)) (hpos : 0 < shocks.length) (hlen : shocks.length ≤ periods)
    (hiter : 0 < maxIter)
    (hslack : ∀ t s, shocks[t]? = some s → ∀ k ≤ periods,
      binds0 (linearPath n m gy gu (linearBefore n m gy gu init shocks t) s k) = false ∧
      binds1 (linearPath n m gy gu (linearBefore n m gy gu init shocks t) s k) = false) :
    occbinTwo la gy gu ref alt0 alt1 dbl binds0 relaxes0 binds1 relaxes1 restrained periods maxIter init
      shocks = .ok ((List.range periods).map (linearAt n m gy gu init shocks)) := by
  unfold occbinTwo
  have := shockLoop_linear (periods := periods) (n := n) (m := m) (gy := gy) (gu := gu)
    (solve := solveTwo la gy gu ref alt0 alt1 dbl binds0 relaxes0 binds1 relaxes1 restrained periods maxIter)
    (shift := fun h => h.drop 1 ++ [(false, false)]) (h0 := List.replicate (periods + 1) (false, false))
    (by rw [List.drop_replicate, ← List.replicate_succ', Nat.add_sub_cancel]) shocks 0 init none
    (by omega) (by
      intro t s ht
      obtain ⟨it, rfl⟩ : ∃ it, maxIter = it + 1 := ⟨maxIter - 1, by omega⟩
      unfold solveTwo
      simp only [updateRestrained_eq, ite_self]
      rw [guessLoop]
      have hsim : hypothesizedTwo la gy gu ref alt0 alt1 dbl (linearBefore n m gy gu init shocks t) s
          (List.replicate (periods + 1) (false, false)) =
          .ok (linearPath n m gy gu (linearBefore n m gy gu init shocks t) s) := by
        unfold hypothesizedTwo
        rw [List.map_replicate, List.map_replicate, bind_ok_of_eq _ (locateRegimes_replicate periods)]
        simp only
        rw [bind_ok_of_eq _ (locateRegimes_replicate periods)]
        exact piecewise_linear hgy hgu _ _ _
      rw [bind_ok_of_eq _ hsim]
      have hm : mismatch (ravelF (List.replicate (periods + 1) (false, false)))
          (tests periods binds0 (linearPath n m gy gu (linearBefore n m gy gu init shocks t) s) ++
            tests periods binds1 (linearPath n m gy gu (linearBefore n m gy gu init shocks t) s))
          (tests periods relaxes0 (linearPath n m gy gu (linearBefore n m gy gu init shocks t) s) ++
            tests periods relaxes1 (linearPath n m gy gu (linearBefore n m gy gu init shocks t) s)) = false := by
        refine mismatch_slack ?_ ?_
        · intro x hx
          unfold tests at hx
          rcases List.mem_append.mp hx with hx | hx
          · obtain ⟨k, hk, rfl⟩ := List.mem_map.mp hx
            exact (hslack t s ht k (by have := List.mem_range.mp hk; omega)).1
          · obtain ⟨k, hk, rfl⟩ := List.mem_map.mp hx
            exact (hslack t s ht k (by have := List.mem_range.mp hk; omega)).2
        · intro x hx
          unfold ravelF at hx
          rw [List.map_replicate, List.map_replicate] at hx
          rcases List.mem_append.mp hx with hx | hx <;> exact (List.mem_replicate.mp hx).2
      rw [if_neg (by rw [hm]; simp), updateTwo_same (by simp [tests_length]; omega)
        (by simp [tests_length]; omega) hm])
  rw [bind_ok_of_eq _ this]
  have hne : shocks ≠ [] := List.length_pos_iff.mp hpos
  simp only
  rw [if_neg hne]
  exact fillRest_linear hpos hlen

/-! ### C61: the restrained option -/

/-- **C61, as stated, is false**: the option has no effect.  For every guess and every outcome of the
tests the two ways to update the guess agree, and so the two-constraint solver returns the same with and
without the option, for all inputs. -/
theorem C61_no_effect (la : LinAlg V) (gy gu : Arr V) (ref alt0 alt1 dbl : Regime V)
    (binds0 relaxes0 binds1 relaxes1 : (Nat → V) → Bool) (periods maxIter : Nat) (init : Nat → V)
    (shocks : List (Nat → V)) :
    (∀ h b r, updateRestrained h b r = updateTwo h b r) ∧
    occbinTwo la gy gu ref alt0 alt1 dbl binds0 relaxes0 binds1 relaxes1 true periods maxIter init shocks =
      occbinTwo la gy gu ref alt0 alt1 dbl binds0 relaxes0 binds1 relaxes1 false periods maxIter init shocks := by
  refine ⟨updateRestrained_eq, ?_⟩
  unfold occbinTwo solveTwo
  simp only [updateRestrained_eq, ite_self]

/-! ### C76: the decision rules used -/

/-- **C76** (partial: every variable that also has a lead must be declared after those with a lag only).
Let every variable with a lag and a lead also occur in the current period, and suppose the solver accepts
the solution `gy`.  The states come in the same order in both orders of the variables exactly if every
state without a lead is declared before every state with one; and then following the rules used by the
solver is the same as following the policy functions of the solution. -/
theorem C76_rules_partial (t : Typer)
    (hg : ∀ c < t.n, ¬ (t.has 0 c = true ∧ t.has 2 c = true ∧ t.has 1 c = false)) :
    (t.drState = t.state ↔ ∀ b ∈ t.pureBackward, ∀ m ∈ t.mixed, b < m) ∧
    ∀ (m : Nat) (gy gu g : Arr V), (∀ b ∈ t.pureBackward, ∀ m ∈ t.mixed, b < m) →
      gyDeclared t gy = .ok g →
      ∀ ym u y : Nat → V, FollowsPolicy t m gy gu ym u y ↔
        ∀ i < t.n, y i = (sumTo t.n fun j => g.e i j * ym j) +
          sumTo m fun k => (guDeclared t gu).e i k * u k := by
  refine ⟨drState_eq_state_iff hg, ?_⟩
  intro m gy gu g ho h ym u y
  exact follows_iff ((C30_permutation_iff_partial t).mpr hg) ((drState_eq_state_iff hg).mpr ho) h ym u y

/-- **C76, from the jacobian to the path** (partial, under the same condition and those of C46).  The rules
the solver uses solve the equations of the reference regime, so that C58 to C60 apply to them. -/
theorem C76_reference_partial (la : LinAlg V) (ex : la.Exact) (t : Llx)
    (hcur : ∀ c < t.n, t.has 1 c = true) (hs : t.nStatic = t.static.length)
    (ho : ∀ b ∈ t.pureBackward, ∀ m ∈ t.mixed, b < m) (J : Arr V) (hJ : J.r = t.n) (nExog : Nat)
    (s : Space V) (gy gu g : Arr V) (hc : Space.create la t.toTyper J = .ok s) (hsep : s.parts.Separated)
    (hsol : solveFirstOrder la t nExog s = .ok (gy, gu)) (h : gyDeclared t.toTyper gy = .ok g)
    (D : Nat → V) :
    SolvesReference (Regime.ofJacobian t nExog J D) g (guDeclared t.toTyper gu) t.n nExog := by
  have hg : ∀ c < t.n, ¬ (t.has 0 c = true ∧ t.has 2 c = true ∧ t.has 1 c = false) := by
    intro c hc h; have := hcur c hc; rw [h.2.2] at this; cases this
  intro ym y yp u h1 h2 i hi
  rw [ofJacobian_linear]
  have hf := fun ym u y => (C76_rules_partial t.toTyper hg).2 nExog gy gu g ho h ym u y
  refine linearised_zero ex hcur hs hJ hc hsep hsol ((hf ym u y).mpr h1) ((hf y (fun _ => 0) yp).mpr ?_) i hi
  intro i hi
  rw [h2 i hi]
  have : (sumTo nExog fun k => (guDeclared t.toTyper gu).e i k * (0 : V)) = 0 := by simp [sumTo_eq]
  rw [this, add_zero]

/-! ### C77: a single state -/

/-- **C77, as stated, is false**: a solution with one state variable is refused, whatever the model, the
constraint and the shocks: with `ValueError`, or with `IndexError` if it is the only variable. -/
theorem C77_false (t : Typer) (gy : Arr V) (h : gy.c = 1) :
    gyDeclared t gy = .error (if gy.r = 1 then .indexError else .valueError) := by
  unfold gyDeclared
  by_cases hr : gy.r = 1
  · rw [if_pos ⟨hr, h⟩, if_pos hr]
  · rw [if_neg (fun hc => hr hc.1), if_pos h, if_neg hr]

/-- **C77** (partial: with two or more states).  Solutions with the right number of columns are accepted. -/
theorem C77_accepted_partial (t : Typer) (gy : Arr V) (h : gy.c = t.nBackward) (h2 : gy.c ≠ 1) :
    ∃ g, gyDeclared t gy = .ok g := by
  unfold gyDeclared
  rw [if_neg (fun hc => h2 hc.2), if_neg h2, if_neg (by rw [h, (C31_sizes t).2.1]; simp)]
  exact ⟨_, rfl⟩

/-! ### examples and refutations -/

theorem obRef_fits : obRef.Fits 2 2 := ofJacobian_fits obT 2 obJ _
theorem obAlt_fits : obAlt.Fits 2 2 := ⟨⟨rfl, rfl⟩, ⟨rfl, rfl⟩, ⟨rfl, rfl⟩, ⟨rfl, rfl⟩⟩

/-- the hypotheses of C76 and C77 are met by a model with two states, one of them with a lead -/
theorem ob_solved : ∃ s gy gu g, Space.create obLa obT.toTyper obJ = .ok s ∧ s.parts.Separated ∧
    solveFirstOrder obLa obT 2 s = .ok (gy, gu) ∧ gyDeclared obT.toTyper gy = .ok g ∧
    sameArr g obGy = true ∧ sameArr (guDeclared obT.toTyper gu) obGu = true := by
  obtain ⟨s, hs, h⟩ := ok_of_check (x := Space.create obLa obT.toTyper obJ)
    (p := fun s => s.parts.eigs == [stab, stab, expl] && okAnd (solveFirstOrder obLa obT 2 s) fun p =>
      okAnd (gyDeclared obT.toTyper p.1) fun g => sameArr g obGy && sameArr (guDeclared obT.toTyper p.2) obGu)
    (by decide +kernel)
  rw [Bool.and_eq_true] at h
  obtain ⟨⟨gy, gu⟩, hg, h'⟩ := ok_of_check h.2
  obtain ⟨g, hd, h''⟩ := ok_of_check h'
  rw [Bool.and_eq_true] at h''
  refine ⟨s, gy, gu, g, hs, .inl ?_, hg, hd, h''.1, h''.2⟩
  rw [beq_iff_eq.mp h.1]
  exact ⟨expl, by simp, rfl⟩

/-- the other hypotheses of C76 for this model -/
example : (∀ c < obT.n, obT.has 1 c = true) ∧ obT.nStatic = obT.static.length ∧
    (∀ b ∈ obT.pureBackward, ∀ m ∈ obT.mixed, b < m) ∧ obJ.r = obT.n ∧ obT.pureBackward = [0] ∧
    obT.mixed = [1] := by decide

/-- and so the decision rules of the example solve the reference regime -/
theorem ob_reference : SolvesReference obRef obGy obGu 2 2 := by
  obtain ⟨s, gy, gu, g, h1, h2, h3, h4, h5, h6⟩ := ob_solved
  have key := C76_reference_partial obLa (ratLa_exact _ _) obT (by decide) (by decide) (by decide) obJ rfl 2
    s gy gu g h1 h2 h3 h4 (fun _ => 0)
  obtain ⟨a1, a2, a3⟩ := sameArr_spec h5
  obtain ⟨b1, b2, b3⟩ := sameArr_spec h6
  have a1 : g.r = 2 := a1
  have a2 : g.c = 2 := a2
  have b1 : (guDeclared obT.toTyper gu).r = 2 := b1
  have b2 : (guDeclared obT.toTyper gu).c = 2 := b2
  intro ym y yp u e1 e2
  refine key ym y yp u ?_ ?_
  · intro i hi
    have hi : i < 2 := hi
    rw [e1 i hi]
    congr 1
    · exact sumTo_congr fun j hj => by rw [a3 i (by omega) j (by omega)]
    · exact sumTo_congr fun j hj => by rw [b3 i (by omega) j (by omega)]
  · intro i hi
    have hi : i < 2 := hi
    rw [e2 i hi]
    exact sumTo_congr fun j hj => by rw [a3 i (by omega) j (by omega)]

/-- the hypotheses of C58 and C60 are met: a shock for which the floor binds for five periods -/
example : ∃ path, solveOne obLa obGy obGu obRef obAlt obBinds (fun _ => false) 7 10 (fun _ => 0)
      (vecOf [1, -8]) (List.replicate 8 false) =
        .ok ([true, true, true, true, true, false, false, false], some path, false) ∧
      path 0 0 = 1 ∧ path 0 1 = -1 ∧ path 4 1 = -1 ∧ path 5 1 = -3/4 := by
  obtain ⟨⟨h, p, c⟩, hs, h'⟩ := ok_of_check (x := solveOne obLa obGy obGu obRef obAlt obBinds (fun _ => false)
    7 10 (fun _ => 0) (vecOf [1, -8]) (List.replicate 8 false))
    (p := fun r => decide (r.1 = [true, true, true, true, true, false, false, false]) && !r.2.2 &&
      match r.2.1 with
      | some path => decide (path 0 0 = 1 ∧ path 0 1 = -1 ∧ path 4 1 = -1 ∧ path 5 1 = -3/4)
      | none => false) (by decide +kernel)
  simp only [Bool.and_eq_true, decide_eq_true_eq, Bool.not_eq_true'] at h'
  obtain ⟨⟨rfl, rfl⟩, h3⟩ := h'
  cases p with
  | none => cases h3
  | some path => exact ⟨path, hs, of_decide_eq_true h3⟩

/-- the hypotheses of C60 for two constraints: here both bind at first, then one of them -/
example : ∃ path, hypothesizedTwo obLa obGy obGu obRef obAlt obRef obAlt (fun _ => 0) (vecOf [1, -8])
      [(true, true), (true, false), (false, true), (false, false), (false, false)] = .ok path ∧
      path 0 1 = -1 ∧ path 3 1 = 3/4 * path 2 1 := by
  obtain ⟨path, hs, h'⟩ := ok_of_check (x := hypothesizedTwo obLa obGy obGu obRef obAlt obRef obAlt
    (fun _ => 0) (vecOf [1, -8])
      [(true, true), (true, false), (false, true), (false, false), (false, false)])
    (p := fun path => decide (path 0 1 = -1 ∧ path 3 1 = 3/4 * path 2 1)) (by decide +kernel)
  exact ⟨path, hs, of_decide_eq_true h'⟩

/-- the hypotheses of C59 are met: with small shocks the floor does not bind -/
example : ∀ t s, [vecOf [1, 1], vecOf [0, -1]][t]? = some s → ∀ k ≤ 3,
    obBinds (linearPath 2 2 obGy obGu (linearBefore 2 2 obGy obGu (fun _ => 0)
      [vecOf [1, 1], vecOf [0, -1]] t) s k) = false := by
  intro t s ht k hk
  match t, ht with
  | 0, ht =>
    cases ht
    interval_cases k <;> decide +kernel
  | 1, ht =>
    cases ht
    interval_cases k <;> decide +kernel

/-- **C58 and C60, as stated, are false**: there is a model with exact linear algebra, decision rules that
solve the reference regime and a constraint that always binds, for which the loop accepts the guess that the
alternative regime is in force in all periods, but the path returned is the linear one, which violates the
equations of the alternative regime. -/
theorem C58_false : obLa.Exact ∧ SolvesReference obRef obGy obGu 2 2 ∧ obRef.Fits 2 2 ∧ obAlt.Fits 2 2 ∧
    ∃ path, solveOne obLa obGy obGu obRef obAlt (fun _ => true) (fun _ => false) 3 10 (fun _ => 0)
        (vecOf [0, 2]) (List.replicate 4 false) = .ok (List.replicate 4 true, some path, false) ∧
      hypothesized obLa obGy obGu obRef obAlt (fun _ => 0) (vecOf [0, 2]) (List.replicate 4 true) = .ok path ∧
      ∀ k < 3, obAlt.linear 2 2 1 (before (fun _ => 0) path k) (path k) (path (k + 1))
        (shockAt (vecOf [0, 2]) k) + obAlt.D 1 ≠ 0 := by
  refine ⟨ratLa_exact _ _, ob_reference, obRef_fits, obAlt_fits, ?_⟩
  obtain ⟨⟨h, p, c⟩, hs, h'⟩ := ok_of_check (x := solveOne obLa obGy obGu obRef obAlt (fun _ => true)
    (fun _ => false) 3 10 (fun _ => 0) (vecOf [0, 2]) (List.replicate 4 false))
    (p := fun r => decide (r.1 = List.replicate 4 true) && !r.2.2 &&
      match r.2.1 with
      | some path => (List.range 3).all fun k => decide (obAlt.linear 2 2 1 (before (fun _ => 0) path k)
          (path k) (path (k + 1)) (shockAt (vecOf [0, 2]) k) + obAlt.D 1 ≠ 0)
      | none => false) (by decide +kernel)
  simp only [Bool.and_eq_true, decide_eq_true_eq, Bool.not_eq_true'] at h'
  obtain ⟨⟨rfl, rfl⟩, h3⟩ := h'
  cases p with
  | none => cases h3
  | some path =>
    obtain ⟨path', e, e1, -, -⟩ := C58_consistent obLa obGy obGu obRef obAlt (fun _ => true) (fun _ => false)
      3 10 (fun _ => 0) (vecOf [0, 2]) _ _ rfl _ hs
    cases e
    refine ⟨path, hs, e1, ?_⟩
    simp only [List.all_eq_true, List.mem_range, decide_eq_true_eq] at h3
    exact h3

/-- **C76, as stated, is false**: when the variable with a lead is declared first, the model is solved, but
the rules the solver uses do not solve its equations. -/
theorem C76_false : ∃ s gy gu g, Space.create obLa boT.toTyper boJ = .ok s ∧ s.parts.Separated ∧
    solveFirstOrder obLa boT 2 s = .ok (gy, gu) ∧ gyDeclared boT.toTyper gy = .ok g ∧
    ¬ SolvesReference (Regime.ofJacobian boT 2 boJ fun _ => 0) g (guDeclared boT.toTyper gu) 2 2 := by
  obtain ⟨s, hs, h⟩ := ok_of_check (x := Space.create obLa boT.toTyper boJ)
    (p := fun s => s.parts.eigs == [stab, stab, expl] && okAnd (solveFirstOrder obLa boT 2 s) fun p =>
      okAnd (gyDeclared boT.toTyper p.1) fun g => decide ((Regime.ofJacobian boT 2 boJ fun _ => 0).linear 2 2 0
        (fun j => if j = 1 then 1 else 0) (fun i => g.e i 1) (fun i => sumTo 2 fun j => g.e i j * g.e j 1)
        (fun _ => 0) ≠ 0)) (by decide +kernel)
  rw [Bool.and_eq_true] at h
  obtain ⟨⟨gy, gu⟩, hg, h'⟩ := ok_of_check h.2
  obtain ⟨g, hd, h''⟩ := ok_of_check h'
  refine ⟨s, gy, gu, g, hs, .inl ?_, hg, hd, ?_⟩
  · rw [beq_iff_eq.mp h.1]
    exact ⟨expl, by simp, rfl⟩
  · intro hsol
    refine of_decide_eq_true h'' (hsol _ _ _ _ ?_ ?_ 0 (by omega))
    · intro i _
      simp [sumTo]
    · intro i _; rfl

#print axioms C57_located_partial
#print axioms C58_consistent
#print axioms C58_one_partial
#print axioms C58_two_partial
#print axioms C58_rows
#print axioms C58_false
#print axioms C59_one
#print axioms C59_two
#print axioms C60_one_partial
#print axioms C60_two_partial
#print axioms C61_no_effect
#print axioms C76_rules_partial
#print axioms C76_reference_partial
#print axioms C76_false
#print axioms C77_false

end Pynare
