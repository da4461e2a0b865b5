import Verif.Props.ShockSize
import Verif.Props.Mixture
import Verif.Props.ImpulseCov
/-!
# C187: variance decompositions and the size of all shocks
-/

namespace Pynare

set_option linter.unusedSectionVars false

variable {V : Type} [Field V] [LinearOrder V] [IsStrictOrderedRing V] {la : LinAlg V} {lyap : Lyap V} {chol : Chol V} {t : Typer}
  {s : Space V} {gy gu sigma sigma' : Arr V} {k tol : V}

/-- the array that is factorised -/
theorem added_perturbed {P : Arr V} (h : sigma.add ((Arr.eye sigma.r sigma.c 0).scale tol) = .ok P) : P = perturbed tol sigma := by
  obtain ⟨-, -, rfl⟩ := Arr.add_eq h
  unfold perturbed
  congr 1
  funext i j
  simp only [Arr.eye, Arr.scale]
  by_cases hij : i = j
  · rw [if_pos hij, if_pos (by omega)]; simp
  · rw [if_neg hij, if_neg (by omega)]; simp

theorem perturbed_times (h : sigma.Times (k * k) sigma') :
    (perturbed tol sigma).Times (k * k) (perturbed (k * k * tol) sigma') := by
  obtain ⟨h1, h2, h3⟩ := h
  refine ⟨h1, h2, fun i hi j hj => ?_⟩
  show sigma'.e i j + _ = k * k * (sigma.e i j + _)
  rw [h3 i hi j hj, mul_add]
  split <;> simp

/-- shares of contributions that are all multiplied by the same number -/
theorem shares_multiple {n : Nat} {parts parts' : List (Arr V)} (hl : parts'.length = parts.length) (hk : 0 < k)
    (h : ∀ (i : Nat) d d', parts[i]? = some d → parts'[i]? = some d' → ∀ c < n, d'.e c c = k * d.e c c) :
    (shares (fun x : V => |x|) n parts).Same (shares (fun x : V => |x|) n parts') := by
  refine ⟨rfl, hl, fun c hc i hi => ?_⟩
  have hc : c < n := hc
  have hi : i < parts.length := hi
  have term : ∀ j < parts.length, (match parts'[j]? with | some a => |a.e c c| | none => (0 : V)) =
      k * match parts[j]? with | some a => |a.e c c| | none => (0 : V) := by
    intro j hj
    have g := List.getElem?_eq_getElem hj
    have g' := List.getElem?_eq_getElem (l := parts') (i := j) (by omega)
    have := h j _ _ g g' c hc
    rw [g, g']
    show |_| = k * |_|
    rw [this, abs_mul, abs_of_pos hk]
  have hsum : (sumTo parts'.length fun j => match parts'[j]? with | some a => |a.e c c| | none => (0 : V)) =
      k * sumTo parts.length fun j => match parts[j]? with | some a => |a.e c c| | none => (0 : V) := by
    rw [hl, sumTo_congr term, sumTo_eq, sumTo_eq, Finset.mul_sum]
  show (if (sumTo parts'.length fun j => match parts'[j]? with | some a => |a.e c c| | none => (0 : V)) = 0 then none
      else some ((match parts'[i]? with | some a => |a.e c c| | none => (0 : V)) /
        sumTo parts'.length fun j => match parts'[j]? with | some a => |a.e c c| | none => (0 : V))) =
    (if (sumTo parts.length fun j => match parts[j]? with | some a => |a.e c c| | none => (0 : V)) = 0 then none
      else some ((match parts[i]? with | some a => |a.e c c| | none => (0 : V)) /
        sumTo parts.length fun j => match parts[j]? with | some a => |a.e c c| | none => (0 : V)))
  rw [hsum, term i hi]
  simp only [mul_eq_zero, hk.ne', false_or]
  split
  · rfl
  · rw [mul_div_mul_left _ _ hk.ne']

/-- **C187** (partial: the small number added to the variances has to be multiplied too).  Shocks with standard deviations `k`
times as large and the same correlations have the same shares in the variances. -/
theorem C187_shares_partial (ly : LyapExact lyap) (ch : CholLower chol) (sh : SolutionShape t gy gu)
    (hst : Stable (stateRows t gy)) (hk : 0 < k) (hs : sigma.Times (k * k) sigma') {D D' : Arr (Option V)}
    (h : decompShares la lyap chol (fun x : V => |x|) tol t s gy gu sigma t.n gu.c = .ok D)
    (h' : decompShares la lyap chol (fun x : V => |x|) (k * k * tol) t s gy gu sigma' t.n gu.c = .ok D') : D.Same D' := by
  obtain ⟨gyd, gud, AB, P, L, sc, gc, parts, h1, h2, h3, h4, h5, h6, h7, h8, rfl⟩ := decompShares_ok h
  obtain ⟨gyd', gud', AB', P', L', sc', gc', parts', g1, g2, g3, g4, g5, g6, g7, g8, rfl⟩ := decompShares_ok h'
  obtain rfl := added_perturbed h4
  obtain rfl := added_perturbed g4
  have hL : ∀ i < sigma.r, ∀ j < sigma.r, L'.e j i = k * L.e j i :=
    chol_multiple (sigma := perturbed tol sigma) (transposed_upper ch) hk (perturbed_times hs) (u := L.tr) (u' := L'.tr)
      (by unfold transposed; rw [h5]; rfl) (by unfold transposed; rw [g5]; rfl)
  obtain ⟨p1, p2⟩ := shockParts_ok h8
  obtain ⟨q1, q2⟩ := shockParts_ok g8
  rw [List.length_range] at p1 q1
  refine shares_multiple (k := k * k) (by omega) (mul_pos hk hk) fun i d d' hd hd' c hc => ?_
  have hi : i < gu.c := by rw [← p1]; exact (List.getElem?_eq_some_iff.mp hd).1
  obtain ⟨d₁, e1, e2⟩ := p2 i i (by simp [hi])
  obtain ⟨d₁', e1', e2'⟩ := q2 i i (by simp [hi])
  obtain rfl := Option.some.inj (hd.symm.trans e1)
  obtain rfl := Option.some.inj (hd'.symm.trans e1')
  obtain ⟨r1, X, hX, hdX⟩ := decomp_part ly sh.perm sh.gyr sh.gyc sh.gur h1 h2 h3 h6 h7 e2
  obtain ⟨r1', X', hX', hdX'⟩ := decomp_part ly sh.perm sh.gyr sh.gyc sh.gur g1 g2 g3 g6 g7 e2'
  obtain ⟨l1, l2, -⟩ := ch _ _ h5
  have l1 : L.r = sigma.r := l1
  have outer : (outerCol L' i).toM gu.c gu.c = (k * k) • (outerCol L i).toM gu.c gu.c := by
    ext a b
    have ha := a.2
    have hb := b.2
    show L'.e a i * L'.e b i = k * k * (L.e a i * L.e b i)
    rw [hL i (by omega) a (by omega), hL i (by omega) b (by omega)]
    ring
  have hXX : X' = (k * k) • X := by
    refine lyapunov_unique (stable_vanish hst) hX' ?_
    rw [outer]
    simp only [Matrix.mul_smul, Matrix.smul_mul, ← smul_add]
    rw [← hX]
  have : d'.toM t.n t.n = (k * k) • d.toM t.n t.n := by
    rw [hdX', hdX, outer, hXX]
    simp only [Matrix.mul_smul, Matrix.smul_mul, ← smul_add]
  exact congrFun (congrFun this ⟨c, hc⟩) ⟨c, hc⟩

/-- an upper factor, transposed, is a lower one -/
theorem lower_of_upper {chol : Chol V} (h : CholUpper chol) : CholLower (transposed chol) := by
  intro s L hL
  unfold transposed at hL
  cases hu : chol s with
  | error e => rw [hu] at hL; cases hL
  | ok u =>
    rw [hu] at hL
    obtain rfl := Except.ok.inj hL
    obtain ⟨c1, c2, c3, c4, c5, c6, c7⟩ := h.exact s u hu
    refine ⟨c2, c1, c3, fun i hi j hj => ?_, fun i hi j hj hij => h.upper s u hu j hj i hij, fun i hi => h.positive s u hu i hi⟩
    have := c7 i (by show i < u.c; omega) j (by omega)
    show (sumTo s.r fun k => u.e k i * u.e k j) = _
    rw [← c1]
    exact this

/-- factors of some matrices -/
def shChol (us : List (Arr ℚ)) : Chol ℚ := transposed (listChol us)

/-- the factors of the example -/
def shTwo : Chol ℚ := shChol [listArr [[4, 0], [0, 3]] 2, listArr [[8, 0], [0, 6]] 2]
/-- the solver of the example -/
def shSolver : Lyap ℚ := ratLyap [listArr [[25, 0], [0, 0]] 2, listArr [[0, 0], [0, 25]] 2, listArr [[25, 0], [0, 25]] 2,
  listArr [[100, 0], [0, 0]] 2, listArr [[0, 0], [0, 100]] 2, listArr [[100, 0], [0, 100]] 2]
/-- shocks that are twice as large -/
def shDiag : Arr ℚ := listArr [[60, 0], [0, 32]] 2

theorem sh_shape : SolutionShape stT stGy stGu' := ⟨stPerm, by decide +kernel, by decide +kernel, by decide +kernel⟩

theorem sh_times : stDiag.Times (2 * 2) shDiag := by
  refine ⟨rfl, rfl, fun i hi j hj => ?_⟩
  have hi : i < 2 := hi
  have hj : j < 2 := hj
  interval_cases i <;> interval_cases j <;> decide +kernel

/-- the hypotheses of `C187_shares_partial` are met -/
example : ∃ D D', decompShares stLa shSolver shTwo (fun x : ℚ => |x|) 1 stT stSpace stGy stGu' stDiag stT.n stGu'.c = .ok D ∧
    decompShares stLa shSolver shTwo (fun x : ℚ => |x|) (2 * 2 * 1) stT stSpace stGy stGu' shDiag stT.n stGu'.c = .ok D' ∧
    D.e 1 0 = some (8 / 25) ∧ D.Same D' := by
  obtain ⟨D, h, e⟩ := ok_of_check (x := decompShares stLa shSolver shTwo (fun x : ℚ => |x|) 1 stT stSpace stGy stGu' stDiag stT.n
    stGu'.c) (p := fun D => decide (D.e 1 0 = some (8 / 25))) (by decide +kernel)
  obtain ⟨D', h', -⟩ := ok_of_check (x := decompShares stLa shSolver shTwo (fun x : ℚ => |x|) (2 * 2 * 1) stT stSpace stGy stGu'
    shDiag stT.n stGu'.c) (p := fun _ => true) (by decide +kernel)
  have := C187_shares_partial (la := stLa) (s := stSpace) (lyap := shSolver) (chol := shTwo) (ratLyap_exact _)
    (lower_of_upper (listChol_upper _)) sh_shape stStable (by norm_num) sh_times h h'
  exact ⟨D, D', h, h', of_decide_eq_true e, this⟩

/-- the number the code adds to variances -/
def shTol : ℚ := 1 / 1000000000000
/-- the factors of the two matrices -/
def shChol' : Chol ℚ := shChol [listArr [[1 / 1000000, 0], [0, 2 / 1000000]] 2, listArr [[1 / 1000000, 0], [0, 7 / 1000000]] 2]
/-- the solver for the two matrices -/
def shLyap : Lyap ℚ := ratLyap [listArr [[25 / 16 * shTol, 0], [0, 0]] 2, listArr [[0, 0], [0, 25 / 9 * 4 * shTol]] 2,
  listArr [[25 / 16 * shTol, 0], [0, 25 / 9 * 4 * shTol]] 2, listArr [[0, 0], [0, 25 / 9 * 49 * shTol]] 2,
  listArr [[25 / 16 * shTol, 0], [0, 25 / 9 * 49 * shTol]] 2]

/-- **C187 does not hold** as the code is, with the number `1e-12` that it adds to the variances: a shock that has no variance
has a share, which changes with the size of all shocks. -/
theorem C187_false : ∃ (sigma sigma' : Arr ℚ) (D D' : Arr (Option ℚ)), LyapExact shLyap ∧ CholLower shChol' ∧
    SolutionShape stT stGy stGu' ∧ Stable (stateRows stT stGy) ∧ sigma.Times (4 * 4) sigma' ∧ sigma.e 0 0 = 0 ∧
    decompShares stLa shLyap shChol' (fun x : ℚ => |x|) shTol stT stSpace stGy stGu' sigma stT.n stGu'.c = .ok D ∧
    decompShares stLa shLyap shChol' (fun x : ℚ => |x|) shTol stT stSpace stGy stGu' sigma' stT.n stGu'.c = .ok D' ∧
    (∃ x y, D.e 1 0 = some x ∧ D'.e 1 0 = some y ∧ 0 < y ∧ y < x) ∧ ¬ D.Same D' := by
  obtain ⟨D, h, e⟩ := ok_of_check (x := decompShares stLa shLyap shChol' (fun x : ℚ => |x|) shTol stT stSpace stGy stGu'
      (listArr [[0, 0], [0, 3 * shTol]] 2) stT.n stGu'.c)
    (p := fun D => decide (1 < D.r ∧ 0 < D.c ∧ D.e 1 0 = some (9 / 145))) (by decide +kernel)
  obtain ⟨D', h', e'⟩ := ok_of_check (x := decompShares stLa shLyap shChol' (fun x : ℚ => |x|) shTol stT stSpace stGy stGu'
      (listArr [[0, 0], [0, 48 * shTol]] 2) stT.n stGu'.c)
    (p := fun D => decide (D.e 1 0 = some (9 / 1675))) (by decide +kernel)
  obtain ⟨e1, e2, e3⟩ := of_decide_eq_true e
  have e' := of_decide_eq_true e'
  refine ⟨listArr [[0, 0], [0, 3 * shTol]] 2, listArr [[0, 0], [0, 48 * shTol]] 2, D, D', ratLyap_exact _,
    lower_of_upper (listChol_upper _), sh_shape, stStable, ⟨rfl, rfl, fun i hi j hj => ?_⟩, by decide +kernel,
    h, h', ⟨_, _, e3, e', by norm_num, by norm_num⟩, fun hs => ?_⟩
  · have hi : i < 2 := hi
    have hj : j < 2 := hj
    interval_cases i <;> interval_cases j <;> decide +kernel
  · have := hs.2.2 1 e1 0 e2
    rw [e3, e'] at this
    norm_num at this

#print axioms C187_shares_partial
#print axioms C187_false

end Pynare
