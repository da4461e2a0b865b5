import Verif.Model.SecondOrder
import Verif.Lemmas.Sylvester
import Verif.Props.Arr
/-!
# Lemmas about arrays of at most two dimensions
-/

namespace Pynare

variable {V : Type} [CommRing V] [DecidableEq V]

set_option linter.unusedSectionVars false

/-- `x` shows the entries `f` in `r` rows and `c` columns, as a vector if there is one column -/
def Nd.Is (x : Nd V) (r c : Nat) (f : Nat → Nat → V) : Prop :=
  match x with
  | .num _ => False
  | .vec n e => c = 1 ∧ n = r ∧ ∀ i < r, e i = f i 0
  | .mat a => c ≠ 1 ∧ a.r = r ∧ a.c = c ∧ ∀ i < r, ∀ j < c, a.e i j = f i j

namespace Nd

theorem Is.congr {x : Nd V} {r c : Nat} {f g : Nat → Nat → V} (h : x.Is r c f)
    (hfg : ∀ i < r, ∀ j < c, f i j = g i j) : x.Is r c g := by
  cases x with
  | num x => exact h
  | vec n e =>
    obtain ⟨h1, h2, h3⟩ := h
    exact ⟨h1, h2, fun i hi => (h3 i hi).trans (hfg i hi 0 (by omega))⟩
  | mat a =>
    obtain ⟨h1, h2, h3, h4⟩ := h
    exact ⟨h1, h2, h3, fun i hi j hj => (h4 i hi j hj).trans (hfg i hi j hj)⟩

/-- entries determine each other -/
theorem Is.unique {x : Nd V} {r c : Nat} {f g : Nat → Nat → V} (h : x.Is r c f) (h' : x.Is r c g) :
    ∀ i < r, ∀ j < c, f i j = g i j := by
  cases x with
  | num x => exact h.elim
  | vec n e =>
    intro i hi j hj
    have : j = 0 := by have := h.1; omega
    subst this
    rw [← h.2.2 i hi, h'.2.2 i hi]
  | mat a =>
    intro i hi j hj
    rw [← h.2.2.2 i hi j hj, h'.2.2.2 i hi j hj]

theorem squeeze_is {a : Arr V} (h : a.r ≠ 1) : (mat a).squeeze.Is a.r a.c a.e := by
  unfold squeeze
  simp only
  rw [if_neg h]
  by_cases hc : a.c = 1
  · rw [if_pos hc]
    exact ⟨hc, rfl, fun _ _ => rfl⟩
  · rw [if_neg hc]
    exact ⟨hc, rfl, rfl, fun _ _ _ _ => rfl⟩

theorem Is.squeeze {x : Nd V} {r c : Nat} {f : Nat → Nat → V} (h : x.Is r c f) (hr : r ≠ 1) :
    x.squeeze.Is r c f := by
  cases x with
  | num x => exact h.elim
  | vec n e =>
    obtain ⟨h1, h2, h3⟩ := h
    unfold Nd.squeeze
    simp only
    rw [if_neg (by omega)]
    exact ⟨h1, h2, h3⟩
  | mat a =>
    obtain ⟨h1, h2, h3, h4⟩ := h
    have := squeeze_is (a := a) (by omega)
    rw [h2, h3] at this
    exact this.congr h4

theorem Is.to2 {x : Nd V} {r c : Nat} {f : Nat → Nat → V} (h : x.Is r c f) :
    x.to2.r = r ∧ x.to2.c = c ∧ ∀ i < r, ∀ j < c, x.to2.e i j = f i j := by
  cases x with
  | num x => exact h.elim
  | vec n e =>
    obtain ⟨h1, h2, h3⟩ := h
    refine ⟨h2, h1.symm, fun i hi j hj => ?_⟩
    have : j = 0 := by omega
    subst this
    exact h3 i hi
  | mat a =>
    obtain ⟨h1, h2, h3, h4⟩ := h
    exact ⟨h2, h3, h4⟩

theorem Is.map {x : Nd V} {r c : Nat} {f : Nat → Nat → V} (h : x.Is r c f) (g : V → V) :
    (x.map g).Is r c fun i j => g (f i j) := by
  cases x with
  | num x => exact h.elim
  | vec n e =>
    obtain ⟨h1, h2, h3⟩ := h
    exact ⟨h1, h2, fun i hi => congrArg g (h3 i hi)⟩
  | mat a =>
    obtain ⟨h1, h2, h3, h4⟩ := h
    exact ⟨h1, h2, h3, fun i hi j hj => congrArg g (h4 i hi j hj)⟩

theorem along_self {n i : Nat} (h : i < n) : along n i = i := by
  unfold along
  split
  · omega
  · rfl

theorem axis_self (n : Nat) : axis n n = .ok n := if_pos rfl

theorem Is.zip {x y : Nd V} {r c : Nat} {f g : Nat → Nat → V} (h : x.Is r c f) (h' : y.Is r c g)
    (op : V → V → V) : ∃ z, Nd.zip op x y = .ok z ∧ z.Is r c fun i j => op (f i j) (g i j) := by
  cases x with
  | num x => exact h.elim
  | vec n e =>
    cases y with
    | num y => exact h'.elim
    | mat b => exact absurd h.1 h'.1
    | vec m e' =>
      obtain ⟨h1, h2, h3⟩ := h
      obtain ⟨g1, g2, g3⟩ := h'
      have e0 : Nd.zip op (vec n e) (vec m e') =
          .ok (vec m fun i => op (e (along n i)) (e' (along m i))) := by
        simp only [Nd.zip, zip1, h2, g2, axis_self]; rfl
      refine ⟨_, e0, h1, g2, fun i hi => ?_⟩
      rw [h2, g2]
      dsimp only
      rw [along_self hi, h3 i hi, g3 i hi]
  | mat a =>
    cases y with
    | num y => exact h'.elim
    | vec m e' => exact absurd h'.1 h.1
    | mat b =>
      obtain ⟨h1, h2, h3, h4⟩ := h
      obtain ⟨g1, g2, g3, g4⟩ := h'
      have e0 : Nd.zip op (mat a) (mat b) =
          .ok (mat ⟨r, c, fun i j => op (a.e (along r i) (along c j)) (b.e (along r i) (along c j))⟩) := by
        simp only [Nd.zip, zip2, row2, h2, h3, g2, g3, axis_self]; rfl
      refine ⟨_, e0, h1, rfl, rfl, fun i hi j hj => ?_⟩
      dsimp only
      rw [along_self hi, along_self hj, h4 i hi j hj, g4 i hi j hj]

theorem Is.rows {x y : Nd V} {r c : Nat} {f : Nat → Nat → V} {idx : List Nat} (h : x.Is r c f)
    (hy : x.rows idx = .ok y) : y.Is idx.length c fun i j => f (idx[i]?.getD 0) j := by
  cases x with
  | num x => exact h.elim
  | vec n e =>
    obtain ⟨h1, h2, h3⟩ := h
    simp only [Nd.rows] at hy
    split at hy
    · rename_i hall
      rw [← Except.ok.inj hy]
      refine ⟨h1, rfl, fun i hi => ?_⟩
      have hm := List.all_eq_true.mp hall idx[i] (List.getElem_mem hi)
      simp only [List.getElem?_eq_getElem hi, Option.getD_some]
      exact h3 _ (by have := of_decide_eq_true hm; omega)
    · cases hy
  | mat a =>
    obtain ⟨h1, h2, h3, h4⟩ := h
    simp only [Nd.rows] at hy
    split at hy
    · rename_i hall
      rw [← Except.ok.inj hy]
      refine ⟨h1, rfl, h3, fun i hi j hj => ?_⟩
      have hm := List.all_eq_true.mp hall idx[i] (List.getElem_mem hi)
      simp only [List.getElem?_eq_getElem hi, Option.getD_some]
      exact h4 _ (by have := of_decide_eq_true hm; omega) j hj
    · cases hy

theorem Is.matmul {x y : Nd V} {r c : Nat} {f : Nat → Nat → V} {a : Arr V} (h : x.Is r c f)
    (hy : Nd.matmul (mat a) x = .ok y) :
    a.c = r ∧ y.Is a.r c fun i j => sumTo r fun k => a.e i k * f k j := by
  cases x with
  | num x => exact h.elim
  | vec n e =>
    obtain ⟨h1, h2, h3⟩ := h
    simp only [Nd.matmul] at hy
    split at hy
    · rename_i hs
      rw [← Except.ok.inj hy]
      refine ⟨by omega, h1, rfl, fun i hi => ?_⟩
      rw [hs, h2]
      exact sumTo_congr fun k hk => by rw [h3 k hk]
    · cases hy
  | mat b =>
    obtain ⟨h1, h2, h3, h4⟩ := h
    simp only [Nd.matmul, bind, Except.bind, Arr.dot] at hy
    split at hy
    · cases hy
    · rename_i v hv
      rw [← Except.ok.inj hy]
      split at hv
      · rename_i hs
        rw [← Except.ok.inj hv]
        refine ⟨by omega, h1, rfl, h3, fun i hi j hj => ?_⟩
        rw [hs, h2]
        exact sumTo_congr fun k hk => by rw [h4 k hk j hj]
      · cases hv

theorem solveNd_is {la : LinAlg V} (ex : la.Exact) {A : Arr V} {x y : Nd V} {r c : Nat} {f : Nat → Nat → V}
    (h : x.Is r c f) (hy : la.solveNd A x = .ok y) :
    A.r = r ∧ A.c = r ∧ ∃ g, y.Is r c g ∧ ∀ i < r, ∀ j < c, (sumTo r fun k => A.e i k * g k j) = f i j := by
  cases x with
  | num x => exact h.elim
  | vec n e =>
    obtain ⟨h1, h2, h3⟩ := h
    simp only [LinAlg.solveNd] at hy
    obtain ⟨z, hz, hy⟩ := Except.bind_eq_ok hy
    rw [← Except.ok.inj hy]
    obtain ⟨hsq, hn⟩ : A.r = A.c ∧ n = A.r := by
      unfold LinAlg.solveChecked at hz
      split at hz
      · assumption
      · cases hz
    obtain ⟨p1, p2, p3, p4⟩ := solveChecked_ok ex hz
    refine ⟨by omega, by omega, z.e, ⟨h1, by omega, fun _ _ => rfl⟩, fun i hi j hj => ?_⟩
    have : j = 0 := by omega
    subst this
    have p3 : (1 : Nat) = z.c := p3
    rw [show r = A.c by omega, p4 i (by omega) 0 (by omega)]
    exact h3 i hi
  | mat b =>
    obtain ⟨h1, h2, h3, h4⟩ := h
    simp only [LinAlg.solveNd] at hy
    obtain ⟨z, hz, hy⟩ := Except.bind_eq_ok hy
    rw [← Except.ok.inj hy]
    obtain ⟨hsq, hn⟩ : A.r = A.c ∧ b.r = A.r := by
      unfold LinAlg.solveChecked at hz
      split at hz
      · assumption
      · cases hz
    obtain ⟨p1, p2, p3, p4⟩ := solveChecked_ok ex hz
    refine ⟨by omega, by omega, z.e, ⟨h1, by omega, by omega, fun _ _ _ _ => rfl⟩, fun i hi j hj => ?_⟩
    rw [show r = A.c by omega, p4 i (by omega) j (by omega)]
    exact h4 i hi j hj

/-- entries of a product with a Kronecker product of arrays with `r` and `r'` rows, `c'` columns in the second -/
def kronEnt (A : Arr V) (r : Nat) (f : Nat → Nat → V) (r' c' : Nat) (g : Nat → Nat → V) (i j : Nat) : V :=
  sumTo r fun p => sumTo r' fun q => A.e i (p * r' + q) * (f p (j / c') * g q (j % c'))

theorem div_add {p q m : Nat} (h : q < m) : (p * m + q) / m = p := by
  rw [Nat.mul_comm, Nat.mul_add_div (by omega), Nat.div_eq_of_lt h, Nat.add_zero]

theorem mod_add {p q m : Nat} (h : q < m) : (p * m + q) % m = q := by
  rw [Nat.mul_comm, Nat.mul_add_mod, Nat.mod_eq_of_lt h]

theorem sum_kron {A : Arr V} {r r' : Nat} {f g : Nat → V} {i : Nat} :
    (sumTo (r * r') fun k => A.e i k * (f (k / r') * g (k % r'))) =
      sumTo r fun p => sumTo r' fun q => A.e i (p * r' + q) * (f p * g q) := by
  rw [sumTo_mul]
  refine sumTo_congr fun p _ => sumTo_congr fun q hq => ?_
  rw [div_add hq, mod_add hq]

/-- the product with the Kronecker product of an array with itself -/
theorem Is.kronProduct {x y : Nd V} {r c : Nat} {f : Nat → Nat → V} {A : Arr V} (h : x.Is r c f)
    (hne : A.c ≠ 1 ∨ c ≠ 1) (hy : Nd.kronProduct A x x = .ok y) :
    A.c = r * r ∧ y.Is A.r (c * c) (kronEnt A r f r c f) := by
  cases x with
  | num x => exact h.elim
  | vec n e =>
    obtain ⟨h1, h2, h3⟩ := h
    subst h1 h2
    have hk : Nd.kronProduct A (vec n e) (vec n e) = Nd.matmul (mat A) (Nd.kron (vec n e) (vec n e)) := by
      unfold Nd.kronProduct
      simp only
      rw [if_neg (by omega)]
    rw [hk] at hy
    have hv : (Nd.kron (vec n e) (vec n e)).Is (n * n) (1 * 1) (fun i _ => e (i / n) * e (i % n)) :=
      ⟨rfl, rfl, fun _ _ => rfl⟩
    obtain ⟨g1, g2⟩ := hv.matmul hy
    refine ⟨g1, g2.congr fun i _ j hj => ?_⟩
    have : j = 0 := by omega
    subst this
    rw [sum_kron]
    unfold kronEnt
    refine sumTo_congr fun p hp => sumTo_congr fun q hq => ?_
    rw [h3 p hp, h3 q hq]
  | mat a =>
    obtain ⟨h1, h2, h3, h4⟩ := h
    have hcc : c * c ≠ 1 := fun he => h1 (Nat.eq_one_of_mul_eq_one_left he)
    have ent : ∀ i j, j < c * c → (sumTo (r * r) fun k => A.e i k * (Pynare.kron a a).e k j) =
        kronEnt A r f r c f i j := by
      intro i j hj
      have hcpos : 0 < c := by
        rcases Nat.eq_zero_or_pos c with h0 | h0
        · subst h0; omega
        · exact h0
      have hd : j / c < c := Nat.div_lt_of_lt_mul hj
      have hm : j % c < c := Nat.mod_lt _ hcpos
      have : ∀ k, (Pynare.kron a a).e k j = a.e (k / r) (j / c) * a.e (k % r) (j % c) := by
        intro k; simp only [Pynare.kron, h2, h3]
      simp only [this]
      rw [sum_kron (f := fun p => a.e p (j / c)) (g := fun q => a.e q (j % c))]
      unfold kronEnt
      refine sumTo_congr fun p hp => sumTo_congr fun q hq => ?_
      rw [h4 p hp _ hd, h4 q hq _ hm]
    have hmm : ∀ y, Nd.matmul (mat A) (Nd.kron (mat a) (mat a)) = .ok y →
        A.c = r * r ∧ y.Is A.r (c * c) (kronEnt A r f r c f) := by
      intro y hy
      have hk : (Nd.kron (mat a) (mat a)).Is (r * r) (c * c) (Pynare.kron a a).e :=
        ⟨hcc, by simp [Pynare.kron, row2, h2], by simp [Pynare.kron, row2, h3], fun _ _ _ _ => rfl⟩
      obtain ⟨g1, g2⟩ := hk.matmul hy
      exact ⟨g1, g2.congr fun i _ j hj => ent i j hj⟩
    unfold Nd.kronProduct at hy
    simp only at hy
    split at hy
    · rename_i hA
      obtain ⟨n, hn, hy⟩ := Except.bind_eq_ok hy
      have hn : r * r = n := by
        have : (Nd.kron (mat a) (mat a)).length = .ok (a.r * a.r) := rfl
        rw [this, h2] at hn
        exact Except.ok.inj hn
      split at hy
      · rename_i h1'
        rw [← Except.ok.inj hy]
        refine ⟨by omega, hcc, by simp [Nd.flat, hA], ?_, ?_⟩
        · show a.r * a.r * (a.c * a.c) = c * c
          rw [h2, h3, hn, h1', Nat.one_mul]
        · intro i hi j hj
          rw [← ent i j hj, hn, h1']
          show A.e (i / A.c) (i % A.c) * (Pynare.kron a a).e (j / (a.c * a.c)) (j % (a.c * a.c)) = _
          rw [h3, Nat.div_eq_of_lt hj, Nat.mod_eq_of_lt hj, hA, Nat.div_one, Nat.mod_one]
          simp [sumTo]
      · exact hmm y hy
    · exact hmm y hy

/-- the product with the Kronecker product of two two-dimensional arrays -/
theorem kronProduct_mat {y : Nd V} {A b c : Arr V} (hy : Nd.kronProduct A (mat b) (mat c) = .ok y) :
    A.c = b.r * c.r ∧ ∃ a, y = mat a ∧ a.r = A.r ∧ a.c = b.c * c.c ∧
      ∀ i < A.r, ∀ j < b.c * c.c, a.e i j = kronEnt A b.r b.e c.r c.c c.e i j := by
  have ent : ∀ i j, (sumTo (b.r * c.r) fun k => A.e i k * (Pynare.kron b c).e k j) =
      kronEnt A b.r b.e c.r c.c c.e i j := by
    intro i j
    simp only [Pynare.kron]
    rw [sum_kron (f := fun p => b.e p (j / c.c)) (g := fun q => c.e q (j % c.c))]
    rfl
  have hmm : ∀ y, Nd.matmul (mat A) (Nd.kron (mat b) (mat c)) = .ok y →
      A.c = b.r * c.r ∧ ∃ a, y = mat a ∧ a.r = A.r ∧ a.c = b.c * c.c ∧
      ∀ i < A.r, ∀ j < b.c * c.c, a.e i j = kronEnt A b.r b.e c.r c.c c.e i j := by
    intro y hy
    simp only [Nd.matmul, Nd.kron, row2] at hy
    obtain ⟨z, hz, hy⟩ := Except.bind_eq_ok hy
    unfold Arr.dot at hz
    split at hz
    · rename_i hs
      have hs : A.c = b.r * c.r := hs
      rw [← Except.ok.inj hz] at hy
      refine ⟨hs, _, (Except.ok.inj hy).symm, rfl, rfl, fun i _ j _ => ?_⟩
      simp only [hs]
      exact ent i j
    · cases hz
  unfold Nd.kronProduct at hy
  simp only at hy
  split at hy
  · rename_i hA
    obtain ⟨n, hn, hy⟩ := Except.bind_eq_ok hy
    have hn : b.r * c.r = n := by
      have : (Nd.kron (mat b) (mat c)).length = .ok (b.r * c.r) := rfl
      rw [this] at hn
      exact Except.ok.inj hn
    split at hy
    · rename_i h1'
      refine ⟨by omega, _, (Except.ok.inj hy).symm, by simp [Nd.flat, hA], ?_, ?_⟩
      · show b.r * c.r * (b.c * c.c) = b.c * c.c
        rw [hn, h1', Nat.one_mul]
      · intro i hi j hj
        rw [← ent i j, hn, h1']
        show A.e (i / A.c) (i % A.c) * (Pynare.kron b c).e (j / (b.c * c.c)) (j % (b.c * c.c)) = _
        rw [Nat.div_eq_of_lt hj, Nat.mod_eq_of_lt hj, hA, Nat.div_one, Nat.mod_one]
        simp [sumTo]
    · exact hmm y hy
  · exact hmm y hy

end Nd

end Pynare
