import Verif.Lemmas.SecondSystem
import Verif.Props.SylvesterUnique
/-!
# Lemmas about the second-order solution: the equations that the arrays solve
-/

namespace Pynare

variable {V : Type} [CommRing V] [DecidableEq V]

set_option linter.unusedSectionVars false

open Nd (kronEnt)

theorem kronEnt_congr {A B : Arr V} {r r' c' i j : Nat} {f f' g g' : Nat → Nat → V}
    (hA : ∀ k < r * r', A.e i k = B.e i k) (hf : ∀ p < r, f p (j / c') = f' p (j / c'))
    (hg : ∀ q < r', g q (j % c') = g' q (j % c')) :
    kronEnt A r f r' c' g i j = kronEnt B r f' r' c' g' i j := by
  unfold kronEnt
  refine sumTo_congr fun p hp => sumTo_congr fun q hq => ?_
  rw [hf p hp, hg q hq, hA]
  calc p * r' + q < p * r' + r' := by omega
    _ = (p + 1) * r' := by rw [Nat.succ_mul]
    _ ≤ r * r' := Nat.mul_le_mul_right _ (by omega)

theorem squeeze_is' {a : Arr V} {r c : Nat} (h1 : a.r = r) (h2 : a.c = c) (h : r ≠ 1) :
    (Nd.mat a).squeeze.Is r c a.e := by
  subst h1 h2
  exact Nd.squeeze_is h

theorem div_lt_of_mul {j c c' : Nat} (h : j < c * c') : j / c' < c ∧ j % c' < c' := by
  have hpos : 0 < c' := by
    rcases Nat.eq_zero_or_pos c' with h0 | h0
    · subst h0; omega
    · exact h0
  exact ⟨Nat.div_lt_of_lt_mul (by rwa [Nat.mul_comm]), Nat.mod_lt _ hpos⟩

/-- the equation for the second derivatives in the states, written with Kronecker products -/
theorem sylvester_kron {nt n : Nat} {A C D E X : Arr V} {G : Nat → Nat → V} (hr : E.r = n) (hc : E.c = nt * nt)
    (hD : ∀ k < nt * nt, ∀ l < nt * nt, D.e k l = G (l / nt) (k / nt) * G (l % nt) (k % nt)) :
    SolvesSylvester A (Arr.eye (nt * nt) (nt * nt) 0) C D E X ↔ X.r = n ∧ X.c = nt * nt ∧
      ∀ i < n, ∀ j < nt * nt, (sumTo n fun k => A.e i k * X.e k j) +
        (sumTo n fun k => C.e i k * kronEnt X nt G nt nt G k j) = E.e i j := by
  unfold SolvesSylvester
  rw [hr, hc]
  have e1 : ∀ i, ∀ j < nt * nt, (sumTo n fun k => sumTo (nt * nt) fun l =>
      A.e i k * X.e k l * (Arr.eye (nt * nt) (nt * nt) 0 : Arr V).e j l) = sumTo n fun k => A.e i k * X.e k j := by
    intro i j hj
    refine sumTo_congr fun k _ => ?_
    rw [sumTo_eq, Finset.sum_eq_single j]
    · simp [Arr.eye]
    · intro l _ hl
      simp [Arr.eye, hl]
    · intro hnot
      exact absurd (Finset.mem_range.mpr hj) hnot
  have e2 : ∀ i, ∀ j < nt * nt, (sumTo n fun k => sumTo (nt * nt) fun l => C.e i k * X.e k l * D.e j l) =
      sumTo n fun k => C.e i k * kronEnt X nt G nt nt G k j := by
    intro i j hj
    refine sumTo_congr fun k _ => ?_
    unfold kronEnt
    rw [← Nd.sum_kron (f := fun p => G p (j / nt)) (g := fun q => G q (j % nt)), sumTo_eq, sumTo_eq,
      Finset.mul_sum]
    refine Finset.sum_congr rfl fun l hl => ?_
    rw [hD j hj l (Finset.mem_range.mp hl), mul_assoc]
  constructor
  · rintro ⟨h1, h2, h3⟩
    refine ⟨h1, h2, fun i hi j hj => ?_⟩
    rw [← e1 i j hj, ← e2 i j hj]
    exact h3 i hi j hj
  · rintro ⟨h1, h2, h3⟩
    refine ⟨h1, h2, fun i hi j hj => ?_⟩
    rw [e1 i j hj, e2 i j hj]
    exact h3 i hi j hj

theorem solveGhxx_ok {la : LinAlg V} (ex : la.Exact) {qz : Arr V → Arr V → Except Err (GQZ V)}
    (hqz : GQZExact qz) {nt n nz : Nat} {A C hess : Arr V} {D zx ghxx : Nd V} {Z G : Nat → Nat → V}
    (hr : hess.r = n) (hc : hess.c ≠ 1) (hz : zx.Is nz nt Z)
    (hD : ∀ k < nt * nt, ∀ l < nt * nt, D.to2.e k l = G (l / nt) (k / nt) * G (l % nt) (k % nt))
    (h : solveGhxx la qz nt A C D zx hess = .ok ghxx) :
    ∃ X : Arr V, X.r = n ∧ X.c = nt * nt ∧ ghxx.Is n (nt * nt) X.e ∧
      (∀ i < n, ∀ j < nt * nt,
        (sumTo n fun k => A.e i k * X.e k j) + (sumTo n fun k => C.e i k * kronEnt X nt G nt nt G k j) =
          - kronEnt hess nz Z nz nt Z i j) ∧
      ∀ X' : Arr V, X'.r = n → X'.c = nt * nt → (∀ i < n, ∀ j < nt * nt,
        (sumTo n fun k => A.e i k * X'.e k j) + (sumTo n fun k => C.e i k * kronEnt X' nt G nt nt G k j) =
          - kronEnt hess nz Z nz nt Z i j) → ∀ i < n, ∀ j < nt * nt, X'.e i j = X.e i j := by
  unfold solveGhxx at h
  obtain ⟨e, he, h⟩ := Except.bind_eq_ok h
  obtain ⟨r, hS, h⟩ := Except.bind_eq_ok h
  obtain ⟨k1, k2⟩ := hz.kronProduct (.inl hc) he
  rw [hr] at k2
  have hE := k2.map (- ·)
  obtain ⟨e1, e2, e3⟩ := hE.to2
  obtain ⟨X, rfl, s0⟩ := C47_solves la ex qz hqz _ _ _ _ _ _ hS
  obtain ⟨s1, s2, s3⟩ := (sylvester_kron e1 e2 hD).mp s0
  refine ⟨X, s1, s2, ?_, fun i hi j hj => ?_, fun X' x1 x2 x3 => ?_⟩
  · generalize hEd : e.map (- ·) = E at *
    simp only at h
    rw [← Except.ok.inj h]
    cases E with
    | num x => exact hE.elim
    | vec m f => exact ⟨hE.1, hE.2.1, fun _ _ => rfl⟩
    | mat a => exact ⟨hE.1, s1, s2, fun _ _ _ _ => rfl⟩
  · rw [← e3 i hi j hj]
    exact s3 i hi j hj
  · have hX' : SolvesSylvester A (Arr.eye (nt * nt) (nt * nt) 0) C D.to2 (e.map (- ·)).to2 X' := by
      refine (sylvester_kron e1 e2 hD).mpr ⟨x1, x2, fun i hi j hj => ?_⟩
      rw [e3 i hi j hj]
      exact x3 i hi j hj
    have := (C47_unique la ex qz hqz _ _ _ _ _ X X' hS hX').2.2
    rw [s1, s2] at this
    exact this

section
variable {t : Typer} (g : Groups t) (hs : t.nStatic = t.static.length)

theorem solveGhxu_ok {la : LinAlg V} (ex : la.Exact) {n s nt ne nz : Nat} {A C hess X : Arr V}
    {gy gu ghxx zx zu ghxu : Nd V} {G U Zx Zu : Nat → Nat → V} (hn : n ≠ 1) (ht0 : nt ≠ 0)
    (hr : hess.r = n) (hC : C.r = n ∧ C.c = n) (hzx : zx.Is nz nt Zx) (hzu : zu.Is nz ne Zu)
    (hgy : gy.Is n nt G) (hgu : gu.Is n ne U) (hX : ghxx.Is n (nt * nt) X.e)
    (h : solveGhxu la (List.range' s nt) gy gu A C ghxx zx zu hess = .ok ghxu) :
    (nt = 1 ∨ ne ≠ 1) ∧ ∃ Y : Nat → Nat → V, ghxu.Is n (nt * ne) Y ∧ ∀ i < n, ∀ j < nt * ne,
      (sumTo n fun k => A.e i k * Y k j) + (sumTo n fun k => C.e i k *
          kronEnt X nt (fun p => G (s + p)) nt ne (fun q => U (s + q)) k j) =
        - kronEnt hess nz Zx nz ne Zu i j := by
  unfold solveGhxu at h
  obtain ⟨e, he, h⟩ := Except.bind_eq_ok h
  obtain ⟨gs, hgs, h⟩ := Except.bind_eq_ok h
  obtain ⟨us, hus, h⟩ := Except.bind_eq_ok h
  obtain ⟨cr, hcr, h⟩ := Except.bind_eq_ok h
  obtain ⟨p, hp, h⟩ := Except.bind_eq_ok h
  obtain ⟨rhs, hrhs, h⟩ := Except.bind_eq_ok h
  obtain ⟨zx1, zx2, zx3⟩ := hzx.to2
  obtain ⟨zu1, zu2, zu3⟩ := hzu.to2
  obtain ⟨X1, X2, X3⟩ := hX.to2
  obtain ⟨gs1, gs2, gs3⟩ := Nd.loc_square hgy hgs
  obtain ⟨r1, r2⟩ := rowOriented_spec hgu hus
  obtain ⟨k1, a, rfl, k3, k4, k5⟩ := Nd.kronProduct_mat he
  obtain ⟨q1, b, rfl, q3, q4, q5⟩ := Nd.kronProduct_mat hcr
  have hne : nt = 1 ∨ ne ≠ 1 := by
    by_cases ht : nt = 1
    · exact .inl ht
    · refine .inr fun hc => ?_
      obtain ⟨o1, o2⟩ := r2 ht hc
      rw [X2, gs1, o1] at q1
      exact ht (Nat.eq_of_mul_eq_mul_left (by omega) q1)
  obtain ⟨o1, o2, o3⟩ := r1 hne
  rw [zx2, zu1, zu2, zx1, hr] at k5
  rw [zx2, zu2] at k4
  rw [gs2, o1, o2, gs1, X1] at q5
  rw [gs2, o2] at q4
  have hE : ((Nd.mat a).map (- ·)).squeeze.Is n (nt * ne) fun i j => - kronEnt hess nz Zx nz ne Zu i j := by
    have := squeeze_is' (a := ⟨a.r, a.c, fun i j => - a.e i j⟩) (k3.trans hr) k4 hn
    refine this.congr fun i hi j hj => ?_
    dsimp only
    obtain ⟨d1, d2⟩ := div_lt_of_mul hj
    rw [k5 i hi j hj]
    congr 1
    exact kronEnt_congr (fun _ _ => rfl) (fun p hp => zx3 p hp _ d1) (fun q hq => zu3 q hq _ d2)
  have hB : (Nd.mat b).squeeze.Is n (nt * ne) fun i j =>
      kronEnt X nt (fun p => G (s + p)) nt ne (fun q => U (s + q)) i j := by
    have := Nd.squeeze_is (a := b) (by omega)
    rw [q3, q4, X1] at this
    refine this.congr fun i hi j hj => ?_
    obtain ⟨d1, d2⟩ := div_lt_of_mul hj
    rw [q5 i hi j hj]
    exact kronEnt_congr (fun k hk => X3 i hi k hk) (fun p hp => gs3 p hp _ d1) (fun q hq => o3 q hq _ d2)
  rw [Nd.matmulScalar_is hB (by omega) (.inl hn)] at hp
  obtain ⟨m1, m2⟩ := hB.matmul hp
  rw [hC.1] at m2
  obtain ⟨z, hz, hzi⟩ := hE.zip m2 (· - ·)
  rw [hz] at hrhs
  have := Except.ok.inj hrhs
  subst this
  obtain ⟨A1, A2, Y, hY, hYe⟩ := Nd.solveNd_is ex hzi h
  refine ⟨hne, Y, hY, fun i hi j hj => ?_⟩
  rw [hYe i hi j hj]
  ring

theorem kronEnt_mul {A B : Arr V} {C : Nat → Nat → V} {n r r' c' i j : Nat} {f g : Nat → Nat → V}
    (h : ∀ k < r * r', A.e i k = sumTo n fun l => C i l * B.e l k) :
    kronEnt A r f r' c' g i j = sumTo n fun l => C i l * kronEnt B r f r' c' g l j := by
  have h1 : kronEnt A r f r' c' g i j = sumTo (r * r') fun k => A.e i k * (f (k / r') (j / c') * g (k % r') (j % c')) :=
    (Nd.sum_kron (f := fun p => f p (j / c')) (g := fun q => g q (j % c'))).symm
  have h2 : ∀ l, kronEnt B r f r' c' g l j =
      sumTo (r * r') fun k => B.e l k * (f (k / r') (j / c') * g (k % r') (j % c')) := fun l =>
    (Nd.sum_kron (f := fun p => f p (j / c')) (g := fun q => g q (j % c'))).symm
  rw [h1]
  simp only [h2, sumTo_eq, Finset.mul_sum]
  rw [Finset.sum_comm]
  refine Finset.sum_congr rfl fun k hk => ?_
  rw [h k (Finset.mem_range.mp hk), sumTo_eq, Finset.sum_mul]
  exact Finset.sum_congr rfl fun l _ => by rw [mul_assoc]

theorem solveGhuu_ok {la : LinAlg V} (ex : la.Exact) {n s nt ne nz : Nat} {A C hess X : Arr V}
    {gu ghxx zu ghuu : Nd V} {U Zu : Nat → Nat → V} (hn : n ≠ 1) (hne : nt = 1 ∨ ne ≠ 1)
    (hr : hess.r = n) (hc : hess.c ≠ 1) (hC : C.r = n ∧ C.c = n) (hzu : zu.Is nz ne Zu)
    (hgu : gu.Is n ne U) (hX : ghxx.Is n (nt * nt) X.e)
    (h : solveGhuu la (List.range' s nt) gu A C ghxx zu hess = .ok ghuu) :
    ∃ Y : Nat → Nat → V, ghuu.Is n (ne * ne) Y ∧ (∀ i < n, ∀ j < ne * ne,
      (sumTo n fun k => A.e i k * Y k j) + (sumTo n fun k => C.e i k *
          kronEnt X nt (fun p => U (s + p)) nt ne (fun q => U (s + q)) k j) =
        - kronEnt hess nz Zu nz ne Zu i j) ∧ A.r = n ∧ A.c = n ∧ ∃ inv, A.IsInv inv := by
  unfold solveGhuu at h
  obtain ⟨e, he, h⟩ := Except.bind_eq_ok h
  obtain ⟨c, hcx, h⟩ := Except.bind_eq_ok h
  obtain ⟨us, hus, h⟩ := Except.bind_eq_ok h
  obtain ⟨x, hx, h⟩ := Except.bind_eq_ok h
  obtain ⟨rhs, hrhs, h⟩ := Except.bind_eq_ok h
  obtain ⟨k1, k2⟩ := hzu.kronProduct (.inl hc) he
  rw [hr] at k2
  have hE := k2.map (- ·)
  obtain ⟨m1, m2⟩ := hX.matmul hcx
  rw [hC.1] at m2
  obtain ⟨c1, c2, c3⟩ := m2.to2
  obtain ⟨o1, o2, o3⟩ := (rowOriented_spec hgu hus).1 hne
  obtain ⟨q1, b, rfl, q3, q4, q5⟩ := Nd.kronProduct_mat hx
  rw [o2, o1, c1] at q5
  rw [o2] at q4
  have hB : (Nd.mat b).squeeze.Is n (ne * ne) fun i j => sumTo n fun k => C.e i k *
      kronEnt X nt (fun p => U (s + p)) nt ne (fun q => U (s + q)) k j := by
    have := Nd.squeeze_is (a := b) (by omega)
    rw [q3, q4, c1] at this
    refine this.congr fun i hi j hj => ?_
    obtain ⟨d1, d2⟩ := div_lt_of_mul hj
    rw [q5 i hi j hj, ← kronEnt_mul (A := c.to2) (fun k hk => c3 i hi k hk)]
    exact kronEnt_congr (fun _ _ => rfl) (fun p hp => o3 p hp _ d1) (fun q hq => o3 q hq _ d2)
  obtain ⟨z, hz, hzi⟩ := hE.zip hB (· - ·)
  rw [hz] at hrhs
  have := Except.ok.inj hrhs
  subst this
  obtain ⟨A1, A2, Y, hY, hYe⟩ := Nd.solveNd_is ex hzi h
  have hinv : ∃ inv, A.IsInv inv := by
    cases z with
    | num x => exact hzi.elim
    | vec n e =>
      simp only [LinAlg.solveNd] at h
      obtain ⟨x, hx, -⟩ := Except.bind_eq_ok h
      exact (solveChecked_inv ex hx).2
    | mat a =>
      simp only [LinAlg.solveNd] at h
      obtain ⟨x, hx, -⟩ := Except.bind_eq_ok h
      exact (solveChecked_inv ex hx).2
  refine ⟨Y, hY, fun i hi j hj => ?_, A1, A2, hinv⟩
  rw [hYe i hi j hj]
  ring

/-- the array of the linear system for the constant -/
def del2Ent (t : Typer) (J : Arr V) (G : Nat → Nat → V) (i j : Nat) : V :=
  J.e i (t.col 1 j) + sumTo t.nF fun f => J.e i (t.col 2 (t.f0 + f)) *
    ((if j = t.f0 + f then 1 else 0) +
      if t.nS ≤ j ∧ j < t.nS + t.nT then G (t.f0 + f) (j - t.nS) else 0)

theorem pureForward_timed (t : Typer) : (t.timed t.pureForward 2).length = t.pureForward.length := by
  unfold Typer.timed
  have : ∀ cs : List Nat, (∀ c ∈ cs, t.has 2 c = true) → (cs.filterMap (t.cell 2)).length = cs.length := by
    intro cs
    induction cs with
    | nil => intro _; rfl
    | cons c cs ih =>
      intro h
      obtain ⟨v, hv⟩ := Option.isSome_iff_exists.mp (h c (by simp))
      simp [hv, ih fun c' hc' => h c' (by simp [hc'])]
  refine this _ fun c hc => ?_
  have := (Typer.mem_sel.mp hc).2
  simp only [Bool.and_eq_true] at this
  first
    | exact this.1.2
    | exact this.2

include g hs

theorem solveDel2_ok {la : LinAlg V} (ex : la.Exact) {half : V} {ne nz : Nat} {J H sigma : Arr V}
    {gy gu ghuu del2 : Nd V} {G U Y : Nat → Nat → V} (hn : t.n ≠ 1)
    (hf : t.nF ≠ 1 ∨ t.nT ≠ 1) (hf0 : t.nF ≠ 0) (hne : t.nT = 1 ∨ ne ≠ 1) (hJ : J.r = t.n) (hH : H.r = t.n)
    (hgy : gy.Is t.n t.nT G) (hgu : gu.Is t.n ne U) (hY : ghuu.Is t.n (ne * ne) Y)
    (hsig : sigma.r = ne ∧ sigma.c = ne)
    (h : solveDel2 la half t nz gy gu ghuu sigma J H = .ok del2) :
    ∃ d : Nat → V, del2.Is t.n 1 (fun i _ => half * d i) ∧ (∀ i < t.n,
      (sumTo t.n fun k => del2Ent t J G i k * d k) + (sumTo (ne * ne) fun m =>
        ((sumTo t.nF fun f => J.e i (t.col 2 (t.f0 + f)) * Y (t.f0 + f) m) +
          sumTo t.nF fun p => sumTo t.nF fun q => H.e i (t.col 2 (t.f0 + p) * nz + t.col 2 (t.f0 + q)) *
            (U (t.f0 + p) (m / ne) * U (t.f0 + q) (m % ne))) * sigma.e (m % ne) (m / ne)) = 0) ∧
      ∀ x : Nat → V, (∀ i < t.n, (sumTo t.n fun k => del2Ent t J G i k * x k) = 0) → ∀ k < t.n, x k = 0 := by
  have gt := g.total
  obtain ⟨sg1, sg2⟩ := hsig
  unfold solveDel2 at h
  obtain ⟨fsq, hfsq, h⟩ := Except.bind_eq_ok h
  obtain ⟨Hf, hHf, h⟩ := Except.bind_eq_ok h
  obtain ⟨guf, hguf, h⟩ := Except.bind_eq_ok h
  obtain ⟨B1, hB1, h⟩ := Except.bind_eq_ok h
  obtain ⟨Jf, hJf, h⟩ := Except.bind_eq_ok h
  obtain ⟨huf, hhuf, h⟩ := Except.bind_eq_ok h
  obtain ⟨x, hx, h⟩ := Except.bind_eq_ok h
  obtain ⟨s, hs', h⟩ := Except.bind_eq_ok h
  obtain ⟨w, hw, h⟩ := Except.bind_eq_ok h
  obtain ⟨gyf, hgyf, h⟩ := Except.bind_eq_ok h
  obtain ⟨l, hl, h⟩ := Except.bind_eq_ok h
  obtain ⟨d, hd, h⟩ := Except.bind_eq_ok h
  obtain ⟨eyef, heye, h⟩ := Except.bind_eq_ok h
  obtain ⟨deriv, hder, h⟩ := Except.bind_eq_ok h
  rw [if_neg (fun hne => hne hJ)] at h
  obtain ⟨y, hy, h⟩ := Except.bind_eq_ok h
  obtain ⟨lhs, hlhs, h⟩ := Except.bind_eq_ok h
  have hguf := rows_fore g hgu hguf
  have hgyf := rows_fore g hgy hgyf
  have hhuf := rows_fore g hY hhuf
  have hlen : (t.drCols 2).length = t.nF := by
    rw [drCols_two g, List.length_map, List.length_range']; rfl
  have hcol : ∀ f < t.nF, (t.drCols 2)[f]?.getD 0 = t.col 2 (t.f0 + f) := by
    intro f hf
    rw [drCols_two g, List.getElem?_map,
      List.getElem?_range' (show f < t.mixed.length + t.pureForward.length from hf)]
    simp [Typer.f0]
  obtain ⟨J1, J2, J3⟩ := cols_e hJf
  rw [hlen] at J2
  obtain ⟨H1, H2, H3⟩ := cols_e hHf
  obtain ⟨F1, -, F3⟩ := squareCols_ok hfsq
  rw [hlen] at F1 F3
  rw [F1] at H2
  -- the right-hand side
  obtain ⟨-, b2⟩ := hguf.kronProduct (by
    by_cases hnf : t.nF = 1
    · exact .inr (by omega)
    · left
      rw [H2]
      exact fun h1 => hnf (Nat.eq_one_of_mul_eq_one_left h1)) hB1
  rw [H1, hH] at b2
  obtain ⟨-, x2⟩ := hhuf.matmul hx
  rw [J1, hJ] at x2
  obtain ⟨z, hz, hzi⟩ := x2.zip b2 (· + ·)
  rw [hz] at hs'
  have := Except.ok.inj hs'
  subst this
  have hwi : w.Is t.n 1 fun i _ => sumTo (ne * ne) fun m =>
      ((sumTo t.nF fun f => J.e i (t.col 2 (t.f0 + f)) * Y (t.f0 + f) m) +
        sumTo t.nF fun p => sumTo t.nF fun q => H.e i (t.col 2 (t.f0 + p) * nz + t.col 2 (t.f0 + q)) *
          (U (t.f0 + p) (m / ne) * U (t.f0 + q) (m % ne))) * sigma.e (m % ne) (m / ne) := by
    have hzi := hzi.congr (g := fun i m => (sumTo t.nF fun f => J.e i (t.col 2 (t.f0 + f)) * Y (t.f0 + f) m) +
        sumTo t.nF fun p => sumTo t.nF fun q => H.e i (t.col 2 (t.f0 + p) * nz + t.col 2 (t.f0 + q)) *
          (U (t.f0 + p) (m / ne) * U (t.f0 + q) (m % ne))) (by
      intro i hi m hm
      congr 1
      · refine sumTo_congr fun f hf => ?_
        rw [J3, hcol f hf]
      · unfold kronEnt
        refine sumTo_congr fun p hp => sumTo_congr fun q hq => ?_
        rw [H3, F3 p q hp hq, hcol p hp, hcol q hq])
    rw [sg1, sg2] at hw
    by_cases h1 : ne = 1
    · subst h1
      cases z with
      | num x => exact hzi.elim
      | mat a => exact absurd rfl hzi.1
      | vec n e =>
        have e1 : (Nd.vec n e).item? = none := by
          have := hzi.2.1
          simp only [Nd.item?]
          rw [if_neg (by omega)]
        have e2 : (Nd.vec (1 * 1) fun k => sigma.e (k % 1) (k / 1)).item? = some (sigma.e 0 0) := rfl
        unfold Nd.matmulScalar at hw
        rw [e1, e2] at hw
        rw [← Except.ok.inj hw]
        refine (hzi.map (· * sigma.e 0 0)).congr fun i _ j hj => ?_
        have : j = 0 := by omega
        subst this
        rw [Nat.mul_one, sumTo_eq 1, Finset.sum_range_one]
    · have hsq : ne * ne ≠ 1 := fun h2 => h1 (Nat.eq_one_of_mul_eq_one_left h2)
      cases z with
      | num x => exact hzi.elim
      | vec n e => exact absurd hzi.1 hsq
      | mat a =>
        have e1 : (Nd.mat a).item? = none := by
          have := hzi.2.2.1
          simp only [Nd.item?]
          rw [if_neg (by omega)]
        have e2 : (Nd.vec (ne * ne) fun k => sigma.e (k % ne) (k / ne)).item? = none := by
          simp only [Nd.item?]
          rw [if_neg hsq]
        unfold Nd.matmulScalar at hw
        rw [e1, e2] at hw
        simp only [Nd.matmul] at hw
        split at hw
        · rw [← Except.ok.inj hw]
          refine ⟨rfl, hzi.2.1, fun i hi => ?_⟩
          rw [hzi.2.2.1]
          refine sumTo_congr fun m hm => ?_
          rw [hzi.2.2.2 i hi m hm]
        · cases hw
  -- the left-hand side
  have hlenM : (t.drMask 2).length = t.nF := by
    rw [drMask_two g, List.length_range']; rfl
  rw [hlenM] at hl hd
  obtain ⟨gy1, gy2, gy3⟩ := hgyf.to2
  obtain ⟨l0, l1, l2, l3, l4⟩ := Arr.hstack_ok hl
  obtain ⟨d0, d1, d2, d3, d4⟩ := Arr.hstack_ok hd
  have hdr : d.r = t.nF := by rw [d1, l1]; rfl
  have hlc : l.c = t.nS + t.nT := by
    rw [l2, gy2]
    show t.nStatic + t.nT = _
    rw [hs]; rfl
  have hdc : d.c = t.n := by
    rw [d2, hlc]
    show t.nS + t.nT + (t.timed t.pureForward 2).length = _
    rw [pureForward_timed]
    unfold Typer.nS Typer.nT
    omega
  have hde : ∀ f < t.nF, ∀ j < t.n, d.e f j =
      if t.nS ≤ j ∧ j < t.nS + t.nT then G (t.f0 + f) (j - t.nS) else 0 := by
    intro f hf j hj
    have hz1 : (Arr.zeros t.nF t.nStatic : Arr V).c = t.nS := hs
    by_cases hj2 : j < t.nS + t.nT
    · rw [d3 f j (by omega)]
      by_cases hj1 : j < t.nS
      · rw [l3 f j (by omega), if_neg (by omega)]
        rfl
      · rw [if_pos (by omega)]
        have := l4 f (j - t.nS)
        rw [hz1, Nat.add_sub_cancel' (by omega)] at this
        rw [this, gy3 f hf _ (by omega)]
    · rw [if_neg (by omega)]
      have := d4 f (j - l.c)
      rw [Nat.add_sub_cancel' (by omega)] at this
      rw [this]
      rfl
  obtain ⟨E, rfl, E1, E2, E3⟩ : ∃ E : Arr V, eyef = .mat E ∧ E.r = t.nF ∧ E.c = t.n ∧
      ∀ f < t.nF, ∀ j < t.n, E.e f j = if j = t.f0 + f then 1 else 0 := by
    have he : (Nd.mat (Arr.eye J.r J.r 0) : Nd V).Is t.n t.n fun i j => if j = i then 1 else 0 :=
      ⟨hn, hJ, hJ, fun _ _ _ _ => rfl⟩
    have := rows_fore g he heye
    cases eyef with
    | num x => exact this.elim
    | vec n e => exact absurd this.1 hn
    | mat a => exact ⟨a, rfl, this.2.1, this.2.2.1, this.2.2.2⟩
  have hrow : (Nd.mat d).squeeze.row2.r = t.nF ∧ (Nd.mat d).squeeze.row2.c = t.n ∧
      ∀ f < t.nF, ∀ j < t.n, (Nd.mat d).squeeze.row2.e f j = d.e f j := by
    by_cases hnf : t.nF = 1
    · have e1 : (Nd.mat d).squeeze = .vec d.c (d.e 0) := by
        simp only [Nd.squeeze]
        rw [if_pos (by omega), if_neg (by omega)]
      rw [e1]
      refine ⟨hnf.symm, hdc, fun f hf j hj => ?_⟩
      have : f = 0 := by omega
      subst this
      rfl
    · have e1 : (Nd.mat d).squeeze = .mat d := by
        simp only [Nd.squeeze]
        rw [if_neg (by omega), if_neg (by omega)]
      rw [e1]
      exact ⟨hdr, hdc, fun _ _ _ _ => rfl⟩
  obtain ⟨T, rfl, T1, T2, T3⟩ : ∃ T : Arr V, deriv = .mat T ∧ T.r = t.nF ∧ T.c = t.n ∧
      ∀ f < t.nF, ∀ j < t.n, T.e f j = (if j = t.f0 + f then 1 else 0) +
        if t.nS ≤ j ∧ j < t.nS + t.nT then G (t.f0 + f) (j - t.nS) else 0 := by
    have e1 : Nd.zip (· + ·) (.mat E) (Nd.mat d).squeeze = Nd.zip2 (· + ·) E (Nd.mat d).squeeze.row2 := by
      cases (Nd.mat d).squeeze <;> rfl
    rw [e1] at hder
    simp only [Nd.zip2, hrow.1, hrow.2.1, E1, E2, Nd.axis_self] at hder
    rw [← Except.ok.inj hder]
    refine ⟨_, rfl, rfl, rfl, fun f hf j hj => ?_⟩
    dsimp only
    rw [Nd.along_self hf, Nd.along_self hj, E3 f hf j hj, hrow.2.2 f hf j hj, hde f hf j hj]
  have hT : (Nd.mat T).Is t.nF t.n T.e := ⟨hn, T1, T2, fun _ _ _ _ => rfl⟩
  obtain ⟨-, y2⟩ := hT.matmul hy
  rw [J1, hJ] at y2
  have hcj : (Nd.mat (currentJac t J)).Is t.n t.n (currentJac t J).e := ⟨hn, rfl, rfl, fun _ _ _ _ => rfl⟩
  obtain ⟨L, hL, hLi⟩ := hcj.zip y2 (· + ·)
  rw [hL] at hlhs
  have := Except.ok.inj hlhs
  subst this
  have hLi := hLi.congr (g := del2Ent t J G) (by
    intro i hi j hj
    unfold del2Ent
    rw [currentJac_e g J hj]
    congr 1
    refine sumTo_congr fun f hf => ?_
    rw [J3, hcol f hf, T3 f hf j hj])
  cases L with
  | num x => exact hLi.elim
  | vec n e => exact absurd hLi.1 hn
  | mat L =>
    obtain ⟨r, hr, h⟩ := Except.bind_eq_ok h
    rw [← Except.ok.inj h]
    obtain ⟨hLr, hLc, v, hv, hve⟩ := Nd.solveNd_is ex (hwi.map (- ·)) hr
    have hinv : ∃ inv, L.IsInv inv := by
      cases hw' : w.map (- ·) with
      | num x =>
        have := hwi.map (- ·)
        rw [hw'] at this
        exact this.elim
      | vec n e =>
        rw [hw'] at hr
        simp only [LinAlg.solveNd] at hr
        obtain ⟨x, hx, -⟩ := Except.bind_eq_ok hr
        exact (solveChecked_inv ex hx).2
      | mat a =>
        rw [hw'] at hr
        simp only [LinAlg.solveNd] at hr
        obtain ⟨x, hx, -⟩ := Except.bind_eq_ok hr
        exact (solveChecked_inv ex hx).2
    refine ⟨fun i => v i 0, (hv.map (half * ·)).congr fun i _ j hj => ?_, fun i hi => ?_, fun x hx k hk => ?_⟩
    · have : j = 0 := by omega
      subst this
      rfl
    · have := hve i hi 0 (by omega)
      rw [sumTo_congr (g := fun k => del2Ent t J G i k * v k 0) (fun k hk => by
        rw [hLi.2.2.2 i hi k hk])] at this
      rw [this]
      ring
    · obtain ⟨inv, ⟨i1, i2, i3, -⟩, j1, j2, j3, j4⟩ := hinv
      have e : ∀ j < t.n, (sumTo t.n fun i => inv.e k i * L.e i j) = if j = k then 1 else 0 := by
        intro j hj
        have := j4 k (by rw [← i1, hLc]; exact hk) j (by rw [hLc]; exact hj)
        rw [j1, hLr] at this
        exact this
      have e2 : (sumTo t.n fun j => (sumTo t.n fun i => inv.e k i * L.e i j) * x j) = 0 := by
        simp only [sumTo_eq, Finset.sum_mul]
        rw [Finset.sum_comm]
        refine Finset.sum_eq_zero fun i hi => ?_
        have := hx i (Finset.mem_range.mp hi)
        rw [sumTo_eq] at this
        refine Eq.trans ?_ (mul_zero (inv.e k i))
        rw [← this, Finset.mul_sum]
        refine Finset.sum_congr rfl fun j hj => ?_
        rw [hLi.2.2.2 i (Finset.mem_range.mp hi) j (Finset.mem_range.mp hj)]
        ring
      rw [sumTo_eq, Finset.sum_eq_single k] at e2
      · rw [e k hk, if_pos rfl, one_mul] at e2
        exact e2
      · intro j hj hjk
        rw [e j (Finset.mem_range.mp hj), if_neg hjk, zero_mul]
      · intro h
        exact absurd (Finset.mem_range.mpr hk) h

end

end Pynare
