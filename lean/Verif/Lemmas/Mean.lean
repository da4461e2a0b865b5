import Verif.Spec.Mean
import Verif.Lemmas.SecondMain
import Verif.Lemmas.Stats
/-!
# Lemmas about the mean
-/

namespace Pynare

open Matrix

set_option linter.unusedSectionVars false

variable {V : Type} [CommRing V] [DecidableEq V]

/-- a column, which may have become a number -/
def Nd.IsCol (x : Nd V) (r : Nat) (f : Nat → V) : Prop :=
  x.Is r 1 (fun i _ => f i) ∨ (r = 1 ∧ ∃ a, x = .num a ∧ a = f 0)

namespace Nd

theorem Is.zipCol {x y : Nd V} {r : Nat} {f g : Nat → V} (h : x.Is r 1 fun i _ => f i) (h' : y.IsCol r g)
    (op : V → V → V) : ∃ z, Nd.zip op x y = .ok z ∧ z.Is r 1 fun i _ => op (f i) (g i) := by
  rcases h' with h' | ⟨hr, a, rfl, ha⟩
  · exact Is.zip h h' op
  · cases x with
    | num x => exact h.elim
    | mat b => exact absurd rfl h.1
    | vec n e =>
      obtain ⟨-, h2, h3⟩ := h
      subst hr
      subst h2
      refine ⟨_, rfl, rfl, rfl, fun i hi => ?_⟩
      have : i = 0 := by omega
      subst this
      have h0 : e 0 = f 0 := h3 0 hi
      show op (e (along 1 0)) a = op (f 0) (g 0)
      rw [ha, ← h0]
      rfl

theorem flat_sum {X : Arr V} {k : Nat} (hc : X.c = k) (f : Nat → V) :
    (sumTo (k * k) fun j => f j * X.e (j / X.c) (j % X.c)) =
      sumTo k fun a => sumTo k fun b => f (a * k + b) * X.e a b := by
  rw [sumTo_mul]
  refine sumTo_congr fun a _ => sumTo_congr fun b hb => ?_
  rw [hc, div_add hb, mod_add hb]

theorem Is.matmulFlat {x y : Nd V} {X : Arr V} {r k : Nat} {f : Nat → Nat → V} (h : x.Is r (k * k) f)
    (hr : X.r = k) (hc : X.c = k) (hy : Nd.matmul x (flatNd X) = .ok y) :
    y.IsCol r fun i => sumTo k fun a => sumTo k fun b => f i (a * k + b) * X.e a b := by
  unfold flatNd at hy
  cases x with
  | num x => exact h.elim
  | vec n e =>
    obtain ⟨h1, h2, h3⟩ := h
    simp only [Nd.matmul] at hy
    split at hy
    · rename_i hn
      rw [← Except.ok.inj hy]
      rw [hr, hc, h1] at hn
      refine .inr ⟨by omega, _, rfl, ?_⟩
      dsimp only
      rw [← flat_sum hc, h1, hn]
      refine sumTo_congr fun j hj => ?_
      have : j = 0 := by omega
      subst this
      rw [h3 0 (by omega)]
    · cases hy
  | mat a =>
    obtain ⟨h1, h2, h3, h4⟩ := h
    simp only [Nd.matmul] at hy
    split at hy
    · rw [← Except.ok.inj hy]
      refine .inl ⟨rfl, h2, fun i hi => ?_⟩
      dsimp only
      rw [← flat_sum hc, h3]
      exact sumTo_congr fun j hj => by rw [h4 i hi j hj]
    · cases hy

theorem Is.scalarFlat {x y : Nd V} {X : Arr V} {r k : Nat} {f : Nat → Nat → V} (h : x.Is r (k * k) f) (hn : r ≠ 1)
    (hr : X.r = k) (hc : X.c = k) (hy : Nd.matmulScalar x (flatNd X) = .ok y) :
    y.Is r 1 fun i _ => sumTo k fun a => sumTo k fun b => f i (a * k + b) * X.e a b := by
  have hx : x.item? = none := by
    cases x with
    | num x => exact h.elim
    | vec n e => simp only [Nd.item?]; rw [if_neg (by have := h.2.1; omega)]
    | mat a => simp only [Nd.item?]; rw [if_neg (by have := h.2.1; omega)]
  unfold Nd.matmulScalar at hy
  rw [hx] at hy
  by_cases hk : k * k = 1
  · have : (flatNd X).item? = some (X.e (0 / X.c) (0 % X.c)) := by
      simp only [flatNd, Nd.item?]
      rw [if_pos (by rw [hr, hc]; exact hk)]
    rw [this] at hy
    simp only at hy
    rw [← Except.ok.inj hy]
    rw [hk] at h
    refine (h.map _).congr fun i hi j hj => ?_
    have : j = 0 := by omega
    subst this
    rw [← flat_sum hc, hk]
    simp [sumTo]
  · have : (flatNd X).item? = none := by
      simp only [flatNd, Nd.item?]
      rw [if_neg (by rw [hr, hc]; exact hk)]
    rw [this] at hy
    simp only at hy
    rcases Is.matmulFlat h hr hc hy with h' | h'
    · exact h'
    · omega

/-- the product of a stored array with a column -/
theorem scalarCol {a : Arr V} {y z : Nd V} {k : Nat} {g : Nat → Nat → V} (h : y.Is k 1 g) (hn : a.r ≠ 1)
    (hk : a.c = k) (hy : Nd.matmulScalar (Nd.mat a).squeeze y = .ok z) :
    z.Is a.r 1 fun i _ => sumTo k fun j => a.e i j * g j 0 := by
  cases y with
  | num x => exact h.elim
  | mat b => exact absurd rfl h.1
  | vec n e =>
    obtain ⟨-, h2, h3⟩ := h
    subst h2
    by_cases hc : n = 1
    · have hs : (Nd.mat a).squeeze = .vec a.r fun i => a.e i 0 := by
        simp only [Nd.squeeze]; rw [if_neg hn, if_pos (by omega)]
      rw [hs] at hy
      have hi : (Nd.vec a.r fun i => a.e i 0).item? = none := by simp only [Nd.item?]; rw [if_neg hn]
      unfold Nd.matmulScalar at hy
      have : (Nd.vec n e).item? = some (e 0) := by simp only [Nd.item?]; rw [if_pos hc]
      rw [hi, this] at hy
      simp only at hy
      rw [← Except.ok.inj hy]
      refine ⟨rfl, rfl, fun i hi => ?_⟩
      subst hc
      dsimp only
      rw [h3 0 (by omega)]
      simp [sumTo]
    · have hs : (Nd.mat a).squeeze = .mat a := by
        simp only [Nd.squeeze]; rw [if_neg hn, if_neg (by omega)]
      rw [hs] at hy
      have hi : (Nd.mat a).item? = none := by simp only [Nd.item?]; rw [if_neg (by omega)]
      have : (Nd.vec n e).item? = none := by simp only [Nd.item?]; rw [if_neg hc]
      unfold Nd.matmulScalar at hy
      rw [hi, this] at hy
      simp only [Nd.matmul] at hy
      rw [if_pos hk] at hy
      rw [← Except.ok.inj hy]
      refine ⟨rfl, rfl, fun i hi => ?_⟩
      dsimp only
      rw [hk]
      exact sumTo_congr fun j hj => by rw [h3 j hj]

end Nd

/-- what `mean` returns: the adjustment of the states solves their equation -/
theorem meanSecond_ok {la : LinAlg V} (ex : la.Exact) {lyap : Lyap V} (ly : LyapExact lyap) {half : V} {t : Typer}
    (hp : t.drOrder.Perm (List.range t.n)) {s : Space V} {gy gu sigma : Arr V} (hr : gy.r = t.n)
    (hc : gy.c = t.nBackward) (hu : gu.r = t.n) (hn : t.n ≠ 1) {sol : SecondNd V} {ss : Nat → V} {m : Nd V}
    {X W : Nat → Nat → V} {d : Nat → V} (isX : sol.ghxx.Is t.n (t.nBackward * t.nBackward) X)
    (isW : sol.ghuu.Is t.n (gu.c * gu.c) W) (isd : sol.del2.Is t.n 1 fun i _ => d i)
    (h : meanSecond la lyap half t s gy gu sigma sol ss = .ok m) :
    ∃ (Y : Arr V) (q e : Nat → V), stateVar la lyap t s gy gu sigma = .ok Y ∧
      (∀ i < t.n, q i = half * (d i +
        (sumTo t.nBackward fun a => sumTo t.nBackward fun b => X i (a * t.nBackward + b) * Y.e a b) +
        sumTo gu.c fun a => sumTo gu.c fun b => W i (a * gu.c + b) * sigma.e a b)) ∧
      (∀ i < t.nBackward, e i = (sumTo t.nBackward fun k => gy.e (stRow t i) k * e k) + q (stRow t i)) ∧
      m.Is t.n 1 fun c _ => ss c + ((sumTo t.nBackward fun k => gy.e (dcRow t c) k * e k) + q (dcRow t c)) := by
  unfold meanSecond at h
  obtain ⟨Y, hY, h⟩ := Except.bind_eq_ok h
  obtain ⟨AB, hK, h⟩ := Except.bind_eq_ok h
  obtain ⟨b, hb, h⟩ := Except.bind_eq_ok h
  obtain ⟨e, he, h⟩ := Except.bind_eq_ok h
  obtain ⟨m', hm', h⟩ := Except.bind_eq_ok h
  obtain ⟨dd, hdd, h⟩ := Except.bind_eq_ok h
  obtain ⟨s1, s2, y1, y2, -⟩ := stateVar_spec ly hp hr hc hu hn hY
  obtain ⟨-, k1, k2, -⟩ := kalman_ok hK
  obtain ⟨a1, a2, a3, a4⟩ := Arr.storedRows_ok k1 (by omega)
  have hl := state_length hp
  have hst : ∀ i < t.nBackward, stRow t i < t.n := by
    intro i hi
    unfold stRow
    rw [List.getElem?_eq_getElem (by omega)]
    have := a4 _ (List.getElem_mem (show i < (t.permute t.drOrder).state.length by omega))
    simpa [hr] using this
  let q : Nat → V := fun i => half * (d i +
        (sumTo t.nBackward fun a => sumTo t.nBackward fun b => X i (a * t.nBackward + b) * Y.e a b) +
        sumTo gu.c fun a => sumTo gu.c fun b => W i (a * gu.c + b) * sigma.e a b)
  -- the shift of the states
  have eb : b.Is t.nBackward 1 fun i _ => q (stRow t i) := by
    unfold stateShift at hb
    obtain ⟨d1, hd1, hb⟩ := Except.bind_eq_ok hb
    obtain ⟨xs, hxs, hb⟩ := Except.bind_eq_ok hb
    obtain ⟨x1, hx1, hb⟩ := Except.bind_eq_ok hb
    obtain ⟨us, hus, hb⟩ := Except.bind_eq_ok hb
    obtain ⟨u1, hu1, hb⟩ := Except.bind_eq_ok hb
    have i1 := isd.rows hd1
    have i2 := (isX.rows hxs).matmulFlat y1 y2 hx1
    have i3 := (isW.rows hus).matmulFlat s1 s2 hu1
    rw [hl] at i1 i2 i3
    obtain ⟨z1, hz1, i4⟩ := i1.zipCol i2 (· + ·)
    obtain ⟨z2, hz2, i5⟩ := i4.zipCol i3 (· + ·)
    rw [hz1] at hb
    simp only [bind, Except.bind] at hb
    rw [hz2] at hb
    simp only at hb
    rw [← Except.ok.inj hb]
    exact i5.map _
  obtain ⟨-, -, g, isg, eqg⟩ := Nd.solveNd_is ex eb he
  have em : m'.Is t.n 1 fun i _ => (sumTo t.nBackward fun k => gy.e i k * g k 0) + q i := by
    unfold meanShift at hm'
    obtain ⟨g1, hg1, hm'⟩ := Except.bind_eq_ok hm'
    obtain ⟨x1, hx1, hm'⟩ := Except.bind_eq_ok hm'
    obtain ⟨u1, hu1, hm'⟩ := Except.bind_eq_ok hm'
    have i1 := Nd.scalarCol isg (by omega) hc hg1
    have i2 := isX.scalarFlat hn y1 y2 hx1
    have i3 := isW.scalarFlat hn s1 s2 hu1
    rw [hr] at i1
    obtain ⟨z1, hz1, i4⟩ := isd.zip i2 (· + ·)
    obtain ⟨z2, hz2, i5⟩ := i4.zip i3 (· + ·)
    obtain ⟨z3, hz3, i6⟩ := i1.zip (i5.map (half * ·)) (· + ·)
    rw [hz1] at hm'
    simp only [bind, Except.bind] at hm'
    rw [hz2] at hm'
    simp only at hm'
    rw [hz3] at hm'
    rw [← Except.ok.inj hm']
    exact i6
  have hdl : t.dcOrder.length = t.n := (C30_inverse t hp).1
  have id := em.rows hdd
  rw [hdl] at id
  have iss : (Nd.vec t.n ss).Is t.n 1 fun i _ => ss i := ⟨rfl, rfl, fun _ _ => rfl⟩
  obtain ⟨z, hz, iz⟩ := iss.zip id (· + ·)
  have hmz : z = m := Except.ok.inj (hz.symm.trans h)
  subst hmz
  refine ⟨Y, q, fun k => g k 0, hY, fun i hi => rfl, fun i hi => ?_, iz⟩
  have e0 := eqg i hi 0 (by omega)
  dsimp only at e0
  have e1 : ∀ k, AB.1.e i k = gy.e (stRow t i) k := fun k => a3 i k
  have e2 : (sumTo t.nBackward fun k => ((if i = k then (1 : V) else 0) - AB.1.e i k) * g k 0) =
      1 * (sumTo t.nBackward fun k => (if i = k then (1 : V) else 0) * g k 0) +
        (-1) * sumTo t.nBackward fun k => gy.e (stRow t i) k * g k 0 := by
    rw [← sumTo_linear]
    exact sumTo_congr fun k _ => by rw [e1]; ring
  have e3 : (sumTo t.nBackward fun k => (if i = k then (1 : V) else 0) * g k 0) = g i 0 := by
    rw [sumTo_eq, Finset.sum_eq_single i]
    · simp
    · intro k _ hk; rw [if_neg (fun h => hk h.symm), zero_mul]
    · intro hh; exact absurd (Finset.mem_range.mpr hi) hh
  rw [e2, e3] at e0
  linear_combination e0

section
variable {R : Type} [CommRing R] [Algebra V R]

theorem E_sum (E : R →ₗ[V] V) (n : Nat) (f : Nat → R) : E (sumTo n f) = sumTo n fun i => E (f i) := by
  rw [sumTo_eq, sumTo_eq, map_sum]

theorem E_combine (E : R →ₗ[V] V) (n : Nat) (a : Nat → V) (f : Nat → R) :
    E (sumTo n fun i => a i • f i) = sumTo n fun i => a i * E (f i) := by
  rw [E_sum]
  exact sumTo_congr fun i _ => by rw [map_smul]; rfl

theorem E_quad (E : R →ₗ[V] V) (X : Arr V) (i r : Nat) (v : Nat → R) (r' : Nat) (w : Nat → R) :
    E (quadRandom X i r v r' w) = sumTo r fun a => sumTo r' fun b => X.e i (a * r' + b) * E (v a * w b) := by
  unfold quadRandom
  rw [E_sum]
  exact sumTo_congr fun a _ => E_combine E _ _ _

end

section order
variable {F : Type} [Field F] [LinearOrder F] [IsStrictOrderedRing F]

/-- what the transition of the states leaves as it is vanishes -/
theorem stable_fixed {t : Typer} {gy : Arr F} (hst : Stable (stateRows t gy)) {x : Nat → F}
    (h : ∀ i < t.nBackward, x i = sumTo t.nBackward fun k => gy.e (stRow t i) k * x k) {i : Nat} (hi : i < t.nBackward) :
    x i = 0 := by
  have it : ∀ k, ∀ i < t.nBackward, iterate (stateRows t gy) x k i = x i := by
    intro k
    induction k with
    | zero => intro i _; rfl
    | succ k ih =>
      intro i hi
      show (sumTo t.nBackward fun j => gy.e (stRow t i) j * iterate (stateRows t gy) x k j) = x i
      rw [h i hi]
      exact sumTo_congr fun j hj => by rw [ih j hj]
  refine zero_of_small fun ε hε => ?_
  obtain ⟨k0, h0⟩ := hst x ε hε
  have := h0 k0 (le_refl _) i hi
  rwa [it k0 i hi] at this

end order

end Pynare
