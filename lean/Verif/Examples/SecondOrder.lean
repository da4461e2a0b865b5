import Verif.Spec.SecondOrder
import Verif.Spec.Sylvester
import Verif.Examples.RatLa
/-!
# Examples for the second-order solution
-/

namespace Pynare

/-- an array of `r` rows that is zero but for the given entries -/
def sparse (r c : Nat) (xs : List (Nat × Nat × ℚ)) : Arr ℚ :=
  ⟨r, c, fun i j => match xs.find? fun x => x.1 == i && x.2.1 == j with
    | some x => x.2.2
    | none => 0⟩

/-- the decomposition is one of these arrays, whose first factor is triangular -/
def gqzB (g : GQZ ℚ) (a c : Arr ℚ) : Bool :=
  ([g.P, g.S, g.Q, g.Z].all fun x => decide (x.r = a.r ∧ x.c = a.r)) &&
    invB g.Q g.Q.tr && invB g.Z g.Z.tr && qzSide a.r g.Q g.P g.Z a && qzSide a.r g.Q g.S g.Z c &&
    (List.range a.r).all fun i => (List.range i).all fun j => decide (g.S.e i j = 0 ∧ g.P.e i j = 0)

theorem gqzB_spec {g : GQZ ℚ} {a c : Arr ℚ} (h : gqzB g a c = true) : g.Decomposes a c := by
  unfold gqzB qzSide at h
  simp only [Bool.and_eq_true, decide_eq_true_eq, List.all_eq_true, List.mem_range] at h
  obtain ⟨⟨⟨⟨⟨h1, h3⟩, h4⟩, h5⟩, h6⟩, h7⟩ := h
  exact ⟨h1, invB_spec h3, invB_spec h4, h5, h6, fun i j hji hi => (h7 i hi j hji).1,
    fun i j hji hi => (h7 i hi j (by omega)).2, fun i hi => .inl (h7 (i + 1) (by omega) i (by omega)).2⟩

/-- decompositions of arrays that are triangular already -/
def triQz : Arr ℚ → Arr ℚ → Except Err (GQZ ℚ) := fun a c =>
  let g : GQZ ℚ := ⟨⟨a.r, a.r, a.e⟩, ⟨a.r, a.r, c.e⟩, Arr.eye a.r a.r 0, Arr.eye a.r a.r 0⟩
  if gqzB g a c then .ok g else .error .valueError

theorem triQz_exact : GQZExact triQz := by
  intro a c g _ _ _ h
  unfold triQz at h
  simp only at h
  split at h
  · rename_i hb
    rw [← Except.ok.inj h]
    exact gqzB_spec hb
  · cases h

/-- the same entries, computed once -/
def fixArr (a : Arr ℚ) : Arr ℚ :=
  listArr ((List.range a.r).map fun i => (List.range a.c).map fun j => a.e i j) a.c

theorem fixArr_same (a : Arr ℚ) : (fixArr a).r = a.r ∧ (fixArr a).c = a.c ∧
    ∀ i < a.r, ∀ j < a.c, (fixArr a).e i j = a.e i j := by
  refine ⟨by simp [fixArr, listArr], rfl, fun i hi j hj => ?_⟩
  simp [fixArr, listArr, hi, hj]

/-- some linear algebra: arrays are solved for as in the other examples -/
def soLa : LinAlg ℚ where
  qr _ := .error .valueError
  rank _ := 0
  ordqz _ _ := .error .valueError
  inv _ := .error .valueError
  solve a b :=
    let a' := fixArr a
    let v := fixArr (candInv a')
    let b' := fixArr b
    if invB a' v then .ok (fixArr ⟨a'.r, b'.c, fun i j => sumTo a'.r fun k => v.e i k * b'.e k j⟩)
    else .error .valueError

theorem soLa_exact : soLa.Exact where
  qr M Q R h := by cases h
  inv a b _ h := by cases h
  ordqz b a q _ _ _ h := by cases h
  solve a b x hsq hb h := by
    simp only [soLa] at h
    split at h
    case isFalse => cases h
    rename_i hi
    have hinv := invB_spec hi
    obtain ⟨a1, a2, a3⟩ := fixArr_same a
    obtain ⟨b1, b2, b3⟩ := fixArr_same b
    generalize fixArr (candInv (fixArr a)) = v at *
    have hv0 : v.c = (fixArr a).r := hinv.1.2.2.1.symm
    have hI : a.IsInv v := by
      obtain ⟨⟨p1, p2, p3, p4⟩, ⟨q1, q2, q3, q4⟩⟩ := hinv
      have q2 : (fixArr a).r = v.r := q2
      refine ⟨⟨by omega, rfl, by show a.r = _; omega, fun i hi j hj => ?_⟩, ⟨by omega, by show a.r = _; omega,
        by show a.r = _; omega, fun i hi j hj => ?_⟩⟩
      · have := p4 i (by omega) j hj
        rw [a2, a1] at this
        refine Eq.trans ?_ this
        exact sumTo_congr fun k hk => by rw [a3 i hi k hk]
      · have := q4 i hi j (by omega)
        rw [a1] at this
        refine Eq.trans ?_ this
        exact sumTo_congr fun k hk => by rw [a3 k (by omega) j hj]
    refine ⟨?_, v, hI⟩
    rw [← Except.ok.inj h]
    obtain ⟨f1, f2, f3⟩ := fixArr_same
      ⟨(fixArr a).r, (fixArr b).c, fun i j => sumTo (fixArr a).r fun k => v.e i k * (fixArr b).e k j⟩
    refine ⟨by rw [f1]; show a.c = (fixArr a).r; omega, by omega, by rw [f2]; exact b2.symm, fun i hi j hj => ?_⟩
    have hj : j < b.c := hj
    have := mulVec_inv hI rfl (fun k => b.e k j) hi
    rw [← this]
    unfold mulVec
    refine sumTo_congr fun k hk => ?_
    rw [f3 k (by show k < (fixArr a).r; omega) j (by show j < (fixArr b).c; omega)]
    dsimp only
    rw [hv0]
    congr 1
    exact sumTo_congr fun l hl => by rw [b3 l (by omega) j hj]

/-! ### one state, one shock, two forward-looking variables

`x = x(-1)/2 + x(-1)^2 + x(-1)*e + e`, `y = y(+1)/2 + x + x*y(+1)`, `z = z(+1)/4 + x + y(+1)^2` -/

/-- the table -/
def so1T : Llx := match buildLlx [[-1, 0], [0, 1], [0, 1]] with
  | .ok t => t
  | .error _ => ⟨⟨0, fun _ _ => none⟩, 0⟩

/-- the jacobian at zero -/
def so1J : Arr ℚ := listArr [[-1/2, 1, 0, 0, 0, 0, -1], [0, -1, 1, 0, -1/2, 0, 0], [0, -1, 0, 1, 0, -1/4, 0]] 7

/-- the second derivatives at zero -/
def so1H : Arr ℚ := sparse 3 49 [(0, 0, -2), (0, 6, -1), (0, 42, -1), (1, 11, -1), (1, 29, -1), (2, 32, -2)]

/-- the first-order solution -/
def so1Gy : Arr ℚ := listArr [[1/2], [2/3], [4/7]] 1
/-- the first-order solution -/
def so1Gu : Arr ℚ := listArr [[1], [4/3], [8/7]] 1
/-- the variance of the shock -/
def so1Sigma : Arr ℚ := listArr [[4]] 1

/-- the second-order solution -/
def so1S : Except Err (SecondNd ℚ) :=
  solveSecondOrder soLa triQz (1/2) so1T.toTyper 1 so1J so1H so1Sigma (Nd.mat so1Gy).squeeze (Nd.mat so1Gu).squeeze

/-! ### two states, two shocks, a forward-looking variable

`x = x(-1)/2 + y + e1 + x(-1)*z(-1) + e1^2/2`, `z = x(-1) + z(-1)/4 + e2 + x(-1)*e1`,
`y = y(+1)/2 + e2 + x(-1)^2 + y(+1)^2 + e1*e2` -/

/-- the table -/
def so2T : Llx := match buildLlx [[-1, 0], [-1, 0], [0, 1]] with
  | .ok t => t
  | .error _ => ⟨⟨0, fun _ _ => none⟩, 0⟩

/-- the jacobian at zero -/
def so2J : Arr ℚ := listArr [[-1/2, 0, 1, 0, -1, 0, -1, 0], [-1, -1/4, 0, 1, 0, 0, 0, -1],
  [0, 0, 0, 0, 1, -1/2, 0, -1]] 8

/-- the second derivatives at zero -/
def so2H : Arr ℚ := sparse 3 64 [(0, 1, -1), (0, 8, -1), (0, 54, -1), (1, 6, -1), (1, 48, -1), (2, 0, -2), (2, 45, -2),
  (2, 55, -1), (2, 62, -1)]

/-- the first-order solution -/
def so2Gy : Arr ℚ := listArr [[1/2, 0], [1, 1/4], [0, 0]] 2
/-- the first-order solution -/
def so2Gu : Arr ℚ := listArr [[1, 1], [0, 1], [0, 1]] 2
/-- the covariances of the shocks -/
def so2Sigma : Arr ℚ := listArr [[1, 0], [0, 1/4]] 2

/-- the second-order solution -/
def so2S : Except Err (SecondNd ℚ) :=
  solveSecondOrder soLa triQz (1/2) so2T.toTyper 2 so2J so2H so2Sigma (Nd.mat so2Gy).squeeze (Nd.mat so2Gu).squeeze

end Pynare
