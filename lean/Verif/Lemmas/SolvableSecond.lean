import Verif.Lemmas.SylvesterSome
import Verif.Lemmas.Regular
/-!
# When the second-order solution exists: no step of the solver fails
-/

namespace Pynare

set_option linter.unusedSectionVars false

open Nd (kronEnt)

variable {V : Type} [Field V] [DecidableEq V]

namespace Nd

theorem Is.rows_some {x : Nd V} {r c : Nat} {f : Nat → Nat → V} {idx : List Nat} (h : x.Is r c f)
    (hi : ∀ i ∈ idx, i < r) : ∃ y, x.rows idx = .ok y := by
  cases x with
  | num x => exact h.elim
  | vec n e =>
    simp only [Nd.rows]
    rw [if_pos (by
      rw [List.all_eq_true]
      intro i him
      exact decide_eq_true (by have := hi i him; have := h.2.1; omega))]
    exact ⟨_, rfl⟩
  | mat a =>
    simp only [Nd.rows]
    rw [if_pos (by
      rw [List.all_eq_true]
      intro i him
      exact decide_eq_true (by have := hi i him; have := h.2.1; omega))]
    exact ⟨_, rfl⟩

theorem Is.row_some {x : Nd V} {r c k : Nat} {f : Nat → Nat → V} (h : x.Is r c f) (hk : k < r) :
    ∃ y, x.row k = .ok y := by
  cases x with
  | num x => exact h.elim
  | vec n e =>
    simp only [Nd.row]
    rw [if_pos (by have := h.2.1; omega)]
    exact ⟨_, rfl⟩
  | mat a =>
    simp only [Nd.row]
    rw [if_pos (by have := h.2.1; omega)]
    exact ⟨_, rfl⟩

theorem Is.loc_some {x : Nd V} {r c s k : Nat} {f : Nat → Nat → V} (h : x.Is r c f) (hk : s + k ≤ r) :
    ∃ y, x.loc (List.range' s k) = .ok y := by
  have hr : ∃ y, x.rows (List.range' s k) = .ok y := h.rows_some fun i hi => by
    rw [List.mem_range'_1] at hi
    omega
  rcases k with _ | _ | k
  · exact hr
  · exact h.row_some (k := s) (by omega)
  · exact hr

theorem Is.matmul_some {x : Nd V} {r c : Nat} {f : Nat → Nat → V} {a : Arr V} (h : x.Is r c f) (ha : a.c = r) :
    ∃ y, Nd.matmul (mat a) x = .ok y := by
  cases x with
  | num x => exact h.elim
  | vec n e =>
    simp only [Nd.matmul]
    rw [if_pos (by have := h.2.1; omega)]
    exact ⟨_, rfl⟩
  | mat b =>
    obtain ⟨y, hy⟩ := Arr.dot_some (a := a) (b := b) (by have := h.2.1; omega)
    exact ⟨_, by simp only [Nd.matmul, hy, exc_bind]; rfl⟩

theorem kronProduct_mat_some {A b c : Arr V} (h : A.c = b.r * c.r) :
    ∃ y, Nd.kronProduct A (mat b) (mat c) = .ok y := by
  obtain ⟨y, hy⟩ := Arr.dot_some (a := A) (b := Pynare.kron b c) h
  have hm : Nd.matmul (mat A) (Nd.kron (mat b) (mat c)) = .ok (mat y) := by
    simp only [Nd.matmul, Nd.kron, row2, hy, exc_bind]
  have hl : (Nd.kron (mat b) (mat c)).length = .ok (b.r * c.r) := rfl
  unfold Nd.kronProduct
  simp only [hm, hl, exc_bind]
  split
  · split
    · exact ⟨_, rfl⟩
    · exact ⟨_, rfl⟩
  · exact ⟨_, rfl⟩

theorem Is.kronProduct_some {x : Nd V} {r c : Nat} {f : Nat → Nat → V} {A : Arr V} (h : x.Is r c f)
    (hA : A.c = r * r) : ∃ y, Nd.kronProduct A x x = .ok y := by
  cases x with
  | num x => exact h.elim
  | mat a => exact kronProduct_mat_some (by rw [hA, h.2.1])
  | vec n e =>
    have hm : Nd.matmul (mat A) (Nd.kron (vec n e) (vec n e)) =
        .ok (vec A.r fun i => sumTo A.c fun k => A.e i k * (e (k / n) * e (k % n))) := by
      simp only [Nd.matmul, Nd.kron]
      rw [if_pos (by rw [hA, h.2.1])]
    have hl : (Nd.kron (vec n e) (vec n e)).length = .ok (n * n) := rfl
    unfold Nd.kronProduct
    simp only [hm, hl, exc_bind]
    split
    · split
      · exact ⟨_, rfl⟩
      · exact ⟨_, rfl⟩
    · exact ⟨_, rfl⟩

theorem solveNd_some {la : LinAlg V} (iv : la.Inverts) {A i : Arr V} {x : Nd V} {r c : Nat} {f : Nat → Nat → V}
    (h : x.Is r c f) (hr : A.r = r) (hc : A.c = r) (hi : A.IsInv i) : ∃ y, la.solveNd A x = .ok y := by
  cases x with
  | num x => exact h.elim
  | vec n e =>
    obtain ⟨y, hy⟩ := solveChecked_some iv (a := A) (b := ⟨n, 1, fun i _ => e i⟩) (by omega)
      (by have := h.2.1; show n = A.r; omega) hi
    exact ⟨_, by simp only [LinAlg.solveNd, hy, exc_bind]; rfl⟩
  | mat b =>
    obtain ⟨y, hy⟩ := solveChecked_some iv (a := A) (b := b) (by omega) (by have := h.2.1; omega) hi
    exact ⟨_, by simp only [LinAlg.solveNd, hy, exc_bind]; rfl⟩

end Nd

theorem stack4_some {a b c d : Nd V} (h1 : a.to2.c = b.to2.c) (h2 : a.to2.c = c.to2.c) (h3 : a.to2.c = d.to2.c) :
    ∃ z, stack4 a b c d = .ok z := by
  obtain ⟨x, hx⟩ := Arr.vstack_some (a := a.to2) (b := b.to2) h1
  obtain ⟨-, -, x2, -⟩ := Arr.vstack_ok hx
  obtain ⟨y, hy⟩ := Arr.vstack_some (a := x) (b := c.to2) (by omega)
  obtain ⟨-, -, y2, -⟩ := Arr.vstack_ok hy
  obtain ⟨z, hz⟩ := Arr.vstack_some (a := y) (b := d.to2) (by omega)
  exact ⟨_, by simp only [stack4, hx, hy, hz, exc_bind]; rfl⟩

theorem squareCols_some {nz : Nat} {cs : List Nat} (h : ∀ c ∈ cs, c < nz) : ∃ xs, squareCols nz cs = .ok xs := by
  unfold squareCols
  rw [if_pos (by
    rw [List.all_eq_true]
    exact fun c hc => decide_eq_true (h c hc))]
  exact ⟨_, rfl⟩

theorem squareCols_lt {nz : Nat} {cs xs : List Nat} (h : squareCols nz cs = .ok xs) :
    ∀ x ∈ xs, x < nz * nz := by
  obtain ⟨-, hc, -⟩ := squareCols_ok h
  unfold squareCols at h
  split at h
  · rw [← Except.ok.inj h]
    intro x hx
    simp only [List.mem_flatMap, List.mem_map] at hx
    obtain ⟨p, hp, q, hq, rfl⟩ := hx
    exact mul_add_lt (hc p hp) (hc q hq)
  · cases h

section
variable {t : Typer} (g : Groups t) (hs : t.nStatic = t.static.length)
include g

theorem mask_lt : (∀ i ∈ t.drMask 1, i < t.n) ∧ ∀ i ∈ t.drMask 2, i < t.n := by
  have gt := g.total
  constructor
  · rw [drMask_one g]
    intro i hi
    rw [List.mem_range'_1] at hi
    omega
  · rw [drMask_two g]
    intro i hi
    rw [List.mem_range'_1] at hi
    omega

theorem states_le : t.nS + t.nT ≤ t.n := by
  have gt := g.total
  unfold Typer.nS Typer.nT
  omega

include hs

theorem systemA_some (hn : t.n ≠ 1) (hf : t.nF ≠ 1 ∨ t.nT ≠ 1) (ht0 : t.nT ≠ 0) {J foreJac : Arr V} {gyf : Nd V}
    {G : Nat → Nat → V} (hJ : J.r = t.n) (hf1 : foreJac.r = J.r) (hf2 : foreJac.c = t.nF)
    (hg : gyf.Is t.nF t.nT G) : ∃ A, systemA t J foreJac gyf = .ok A := by
  have hle := states_le g
  have hms : Nd.matmulScalar (.mat foreJac) gyf = Nd.matmul (.mat foreJac) gyf :=
    Nd.matmulScalar_is hg (by omega) hf
  obtain ⟨upd, hu⟩ := hg.matmul_some (a := foreJac) hf2
  obtain ⟨m1, m2⟩ := hg.matmul hu
  rw [hf1, hJ] at m2
  unfold systemA
  rw [if_neg (fun h => h hJ), hms, hu]
  simp only [exc_bind]
  rw [tloc_eq g hs]
  by_cases ht : t.nT = 1
  · rw [ht] at m2 hle ⊢
    simp only [List.range'_one]
    rw [if_pos (by omega)]
    have hv : (Nd.vec t.n fun i => (currentJac t J).e i t.nS).Is t.n 1
        (fun i _ => (currentJac t J).e i t.nS) := ⟨rfl, rfl, fun _ _ => rfl⟩
    obtain ⟨z, hz, hzi⟩ := hv.zip m2 (· + ·)
    rw [hz]
    simp only [exc_bind]
    cases z with
    | num x => exact hzi.elim
    | mat a => exact absurd rfl hzi.1
    | vec n e =>
      simp only [Nd.intoVec]
      rw [if_pos (.inl hzi.2.1)]
      exact ⟨_, rfl⟩
  · obtain ⟨sub, hsub⟩ := Arr.cols_some (a := currentJac t J) (cs := List.range' t.nS t.nT) (by
      intro c hc
      rw [List.mem_range'_1] at hc
      show c < t.n
      omega)
    obtain ⟨c1, c2, c3⟩ := cols_e hsub
    have hv : (Nd.mat sub).Is t.n t.nT sub.e :=
      ⟨ht, by rw [c1]; rfl, by rw [c2, List.length_range'], fun _ _ _ _ => rfl⟩
    obtain ⟨z, hz, hzi⟩ := hv.zip m2 (· + ·)
    have hw : ∃ w, z.intoMat t.n (List.range' t.nS t.nT).length = .ok w := by
      cases z with
      | num x => exact hzi.elim
      | vec n e => exact absurd hzi.1 ht
      | mat a =>
        simp only [Nd.intoMat, Nd.row2, List.length_range']
        rw [if_pos ⟨.inl hzi.2.1, .inl hzi.2.2.1⟩]
        exact ⟨_, rfl⟩
    obtain ⟨w, hw⟩ := hw
    rcases hT : t.nT with _ | _ | k
    · exact absurd hT ht0
    · exact absurd hT ht
    · rw [hT] at hsub hw
      simp only [List.range'_succ] at hsub hw ⊢
      simp only [hsub, hz, hw, exc_bind]
      exact ⟨_, rfl⟩

theorem setupSystem_some (hn : t.n ≠ 1) (hf : t.nF ≠ 1 ∨ t.nT ≠ 1) (hf0 : t.nF ≠ 0) (ht0 : t.nT ≠ 0) {J : Arr V}
    {gy : Nd V} {G : Nat → Nat → V} (hJ : J.r = t.n) (hlt : ∀ r c v, t.cell r c = some v → v < J.c)
    (hgy : gy.Is t.n t.nT G) : ∃ S, setupSystem t J gy = .ok S := by
  obtain ⟨cj, hcj⟩ : ∃ x, J.cols (t.drCols 1) = .ok x := timed_some hlt _ _ 1
  obtain ⟨fj, hfj⟩ : ∃ x, J.cols (t.drCols 2) = .ok x := timed_some hlt _ _ 2
  obtain ⟨f1, f2, -⟩ := cols_e hfj
  rw [drCols_two g, List.length_map, List.length_range'] at f2
  obtain ⟨gyf, hgf⟩ := hgy.rows_some (mask_lt g).2
  have hgf' := rows_fore g hgy hgf
  obtain ⟨A, hA⟩ := systemA_some g hs hn hf ht0 hJ f1 f2 hgf'
  have hC : ∃ C, systemC t fj = .ok C := by
    unfold systemC
    rw [if_neg (by
      rintro (h | h)
      · omega
      · rw [f2] at h; exact hf0 h)]
    exact ⟨_, rfl⟩
  obtain ⟨C, hC⟩ := hC
  obtain ⟨gs, hgs⟩ := hgy.loc_some (states_le g)
  rw [← tloc_eq g hs] at hgs
  exact ⟨_, by simp only [setupSystem, hcj, hfj, hgf, hA, hC, hgs, exc_bind]; rfl⟩

theorem hessCoefsDx_some (hf : t.nF ≠ 1 ∨ t.nT ≠ 1) (ht0 : t.nT ≠ 0) {nExog : Nat}
    {gy : Nd V} {G : Nat → Nat → V} (hgy : gy.Is t.n t.nT G) : ∃ zx, hessCoefsDx t nExog gy = .ok zx := by
  obtain ⟨gc, hgc⟩ := hgy.rows_some (mask_lt g).1
  obtain ⟨gf, hgf⟩ := hgy.rows_some (mask_lt g).2
  obtain ⟨gs, hgs⟩ := hgy.loc_some (states_le g)
  have igc := rows_cur g hgy hgc
  have igf := rows_fore g hgy hgf
  have hF : ∃ fo, Nd.matmulScalar gf gs = .ok fo ∧ fo.to2.c = t.nT := by
    by_cases ht : t.nT = 1
    · rw [ht] at hgs hgy igf ⊢
      have hgs := (Nd.loc_one hgy hgs).1 rfl
      have e2 : gs.item? = some (G t.nS 0) := by rw [hgs]; rfl
      cases gf with
      | num x => exact igf.elim
      | mat a => exact absurd rfl igf.1
      | vec n e =>
        have e1 : (Nd.vec n e).item? = none := by
          have := igf.2.1
          simp only [Nd.item?]
          rw [if_neg (by omega)]
        unfold Nd.matmulScalar
        rw [e1, e2]
        exact ⟨_, rfl, rfl⟩
    · have hm := Nd.loc_many hgy ht hgs
      cases gf with
      | num x => exact igf.elim
      | vec n e => exact absurd igf.1 ht
      | mat a =>
        have e1 : (Nd.mat a).item? = none := by
          have := igf.2.2.1
          simp only [Nd.item?]
          rw [if_neg (by omega)]
        have e2 : gs.item? = none := by
          cases gs with
          | num x => exact hm.elim
          | vec n e => exact absurd hm.1 ht
          | mat b =>
            have := hm.2.1
            simp only [Nd.item?]
            rw [if_neg (by omega)]
        obtain ⟨y, hy⟩ := hm.matmul_some (a := a) igf.2.2.1
        obtain ⟨m1, m2⟩ := hm.matmul hy
        unfold Nd.matmulScalar
        rw [e1, e2]
        exact ⟨y, hy, m2.to2.2.1⟩
  obtain ⟨fo, hfo, hfc⟩ := hF
  have hb : t.nBackward = t.nT := (C31_sizes t).2.2.2.1
  obtain ⟨z, hz⟩ := stack4_some (a := .mat (Arr.eye t.nBackward t.nBackward 0)) (b := gc) (c := fo)
    (d := .mat (Arr.zeros nExog t.nBackward)) (by rw [igc.to2.2.1]; exact hb) (by rw [hfc]; exact hb) rfl
  rw [← tloc_eq g hs] at hgs
  exact ⟨z, by simp only [hessCoefsDx, hgc, hgf, hgs, hfo, exc_bind]; exact hz⟩

theorem hessCoefsDu_some (hf : t.nF ≠ 1 ∨ t.nT ≠ 1) (ht0 : t.nT ≠ 0) {nExog : Nat}
    (hne : t.nT = 1 → nExog ≠ 1 → t.nF ≠ nExog)
    {gy gu : Nd V} {G U : Nat → Nat → V} (hgy : gy.Is t.n t.nT G) (hgu : gu.Is t.n nExog U) :
    ∃ zu, hessCoefsDu t nExog gy gu = .ok zu := by
  obtain ⟨gc, hgc⟩ := hgu.rows_some (mask_lt g).1
  obtain ⟨gf, hgf⟩ := hgy.rows_some (mask_lt g).2
  obtain ⟨gs, hgs⟩ := hgu.loc_some (states_le g)
  have igc := rows_cur g hgu hgc
  have igf := rows_fore g hgy hgf
  have hF : ∃ fo, matmulOrOuter gf gs = .ok fo ∧ fo.to2.c = nExog := by
    by_cases ht : t.nT = 1
    · rw [ht] at hgs igf hf
      have hf : t.nF ≠ 1 := by omega
      obtain ⟨l1, l2⟩ := Nd.loc_one hgu hgs
      cases gf with
      | num x => exact igf.elim
      | mat a => exact absurd rfl igf.1
      | vec n e =>
        obtain ⟨-, rfl, hge⟩ := igf
        have e1 : (Nd.vec t.nF e).item? = none := by
          simp only [Nd.item?]
          rw [if_neg hf]
        by_cases hc : nExog = 1
        · have e2 : gs.item? = some (U t.nS 0) := by rw [l1 hc]; rfl
          have hms : Nd.matmulScalar (.vec t.nF e) gs = .ok ((Nd.vec t.nF e).map (· * U t.nS 0)) := by
            unfold Nd.matmulScalar
            rw [e1, e2]
          unfold matmulOrOuter
          rw [hms]
          exact ⟨_, rfl, hc.symm⟩
        · obtain ⟨e', rfl, he'⟩ := l2 hc
          have e2 : (Nd.vec nExog e').item? = none := by
            simp only [Nd.item?]
            rw [if_neg hc]
          have hms : Nd.matmulScalar (.vec t.nF e) (.vec nExog e') = .error .valueError := by
            unfold Nd.matmulScalar
            rw [e1, e2]
            simp only [Nd.matmul]
            rw [if_neg (hne ht hc)]
          unfold matmulOrOuter
          rw [hms]
          exact ⟨_, rfl, rfl⟩
    · have hm := Nd.loc_many hgu ht hgs
      cases gf with
      | num x => exact igf.elim
      | vec n e => exact absurd igf.1 ht
      | mat a =>
        have e1 : (Nd.mat a).item? = none := by
          have := igf.2.2.1
          simp only [Nd.item?]
          rw [if_neg (by omega)]
        have e2 : gs.item? = none := by
          cases gs with
          | num x => exact hm.elim
          | vec n e =>
            have := hm.2.1
            simp only [Nd.item?]
            rw [if_neg (by omega)]
          | mat b =>
            have := hm.2.1
            simp only [Nd.item?]
            rw [if_neg (by omega)]
        obtain ⟨y, hy⟩ := hm.matmul_some (a := a) igf.2.2.1
        obtain ⟨m1, m2⟩ := hm.matmul hy
        have hms : Nd.matmulScalar (.mat a) gs = .ok y := by
          unfold Nd.matmulScalar
          rw [e1, e2]
          exact hy
        unfold matmulOrOuter
        rw [hms]
        exact ⟨y, rfl, m2.to2.2.1⟩
  obtain ⟨fo, hfo, hfc⟩ := hF
  obtain ⟨z, hz⟩ := stack4_some (a := .mat (Arr.zeros t.nBackward nExog)) (b := gc) (c := fo)
    (d := .mat (Arr.eye nExog nExog 0)) (by rw [igc.to2.2.1]; rfl) (by rw [hfc]; rfl) rfl
  rw [← tloc_eq g hs] at hgs
  exact ⟨z, by simp only [hessCoefsDu, hgc, hgf, hgs, hfo, exc_bind]; exact hz⟩

end

theorem solveGhxx_some {la : LinAlg V} (iv : la.Inverts) (ex : la.Exact) {qz : Arr V → Arr V → Except Err (GQZ V)}
    (hqz : GQZExact qz) {nt n nz : Nat} {A C hess : Arr V} {D zx : Nd V} {Z : Nat → Nat → V}
    (ht : nt ≠ 0) (hA : A.r = n ∧ A.c = n) (hC : C.r = n ∧ C.c = n)
    (hD : D.to2.r = nt * nt ∧ D.to2.c = nt * nt) (hr : hess.r = n) (hc : hess.c = nz * nz) (hc1 : hess.c ≠ 1)
    (hz : zx.Is nz nt Z)
    (q1 : nt ≠ 1 → ∃ g, qz A C = .ok g) (q2 : nt ≠ 1 → ∃ g, qz D.to2 (Arr.eye (nt * nt) (nt * nt) 0) = .ok g)
    (inj : ∀ X : Arr V, SolvesSylvester A (Arr.eye (nt * nt) (nt * nt) 0) C D.to2 (Arr.zeros n (nt * nt)) X →
      ∀ i < n, ∀ j < nt * nt, X.e i j = 0) :
    ∃ ghxx, solveGhxx la qz nt A C D zx hess = .ok ghxx := by
  obtain ⟨e, he⟩ := hz.kronProduct_some hc
  obtain ⟨k1, k2⟩ := hz.kronProduct (.inl hc1) he
  rw [hr] at k2
  obtain ⟨e1, e2, e3⟩ := (k2.map (- ·)).to2
  have hnt : nt ≠ 1 ∨ nt = 1 := by omega
  obtain ⟨r, hS⟩ := generalizedSylvester_some iv hqz hA hC (B := Arr.eye (nt * nt) (nt * nt) 0)
    (n := nt * nt) ⟨rfl, rfl⟩ hD (E := (e.map (- ·)).to2) ⟨e1, e2⟩ (Nat.mul_ne_zero ht ht)
    (fun _ h => q1 fun h1 => h (by rw [h1])) (fun _ h => q2 fun h1 => h (by rw [h1])) inj
  obtain ⟨X, rfl, -⟩ := C47_solves la ex qz hqz _ _ _ _ _ _ hS
  exact ⟨_, by simp only [solveGhxx, he, hS, exc_bind]; rfl⟩

theorem solveGhxu_some {la : LinAlg V} (iv : la.Inverts) {n s nt ne nz : Nat} {A C hess X i : Arr V}
    {gy gu ghxx zx zu : Nd V} {G U Zx Zu : Nat → Nat → V} (hn : n ≠ 1)
    (hne : nt = 1 ∨ ne ≠ 1) (hle : s + nt ≤ n)
    (hr : hess.r = n) (hc : hess.c = nz * nz) (hA : A.r = n ∧ A.c = n) (hi : A.IsInv i) (hC : C.r = n ∧ C.c = n)
    (hzx : zx.Is nz nt Zx) (hzu : zu.Is nz ne Zu)
    (hgy : gy.Is n nt G) (hgu : gu.Is n ne U) (hX : ghxx.Is n (nt * nt) X.e) :
    ∃ ghxu, solveGhxu la (List.range' s nt) gy gu A C ghxx zx zu hess = .ok ghxu := by
  obtain ⟨zx1, zx2, zx3⟩ := hzx.to2
  obtain ⟨zu1, zu2, zu3⟩ := hzu.to2
  obtain ⟨X1, X2, X3⟩ := hX.to2
  obtain ⟨e, he⟩ := Nd.kronProduct_mat_some (A := hess) (b := zx.to2) (c := zu.to2) (by rw [hc, zx1, zu1])
  obtain ⟨gs, hgs⟩ := hgy.loc_some hle
  obtain ⟨us, hus⟩ := hgu.loc_some hle
  obtain ⟨gs1, gs2, gs3⟩ := Nd.loc_square hgy hgs
  obtain ⟨o1, o2, o3⟩ := (rowOriented_spec hgu hus).1 hne
  obtain ⟨cr, hcr⟩ := Nd.kronProduct_mat_some (A := ghxx.to2) (b := gs.to2) (c := rowOriented us)
    (by rw [X2, gs1, o1])
  obtain ⟨k1, a, rfl, k3, k4, k5⟩ := Nd.kronProduct_mat he
  obtain ⟨q1, b, rfl, q3, q4, q5⟩ := Nd.kronProduct_mat hcr
  rw [zx2, zu2] at k4
  rw [gs2, o2] at q4
  have hE : ((Nd.mat a).map (- ·)).squeeze.Is n (nt * ne) fun i j => - a.e i j :=
    squeeze_is' (a := ⟨a.r, a.c, fun i j => - a.e i j⟩) (k3.trans hr) k4 hn
  have hB : (Nd.mat b).squeeze.Is n (nt * ne) b.e := squeeze_is' (q3.trans X1) q4 hn
  obtain ⟨p, hp⟩ := hB.matmul_some (a := C) hC.2
  obtain ⟨m1, m2⟩ := hB.matmul hp
  rw [hC.1] at m2
  have hms := Nd.matmulScalar_is (a := C) hB (by omega) (.inl hn)
  obtain ⟨z, hz, hzi⟩ := hE.zip m2 (· - ·)
  obtain ⟨y, hy⟩ := Nd.solveNd_some iv hzi hA.1 hA.2 hi
  exact ⟨y, by simp only [solveGhxu, he, hgs, hus, hcr, hms, hp, hz, exc_bind]; exact hy⟩

theorem solveGhuu_some {la : LinAlg V} (iv : la.Inverts) {n s nt ne nz : Nat} {A C hess X i : Arr V}
    {gu ghxx zu : Nd V} {U Zu : Nat → Nat → V} (hn : n ≠ 1)
    (hne : nt = 1 ∨ ne ≠ 1) (hle : s + nt ≤ n)
    (hr : hess.r = n) (hc : hess.c = nz * nz) (hc1 : hess.c ≠ 1) (hA : A.r = n ∧ A.c = n) (hi : A.IsInv i)
    (hC : C.r = n ∧ C.c = n)
    (hzu : zu.Is nz ne Zu) (hgu : gu.Is n ne U) (hX : ghxx.Is n (nt * nt) X.e) :
    ∃ ghuu, solveGhuu la (List.range' s nt) gu A C ghxx zu hess = .ok ghuu := by
  obtain ⟨e, he⟩ := hzu.kronProduct_some hc
  obtain ⟨k1, k2⟩ := hzu.kronProduct (.inl hc1) he
  rw [hr] at k2
  have hE := k2.map (- ·)
  obtain ⟨c, hcx⟩ := hX.matmul_some (a := C) hC.2
  obtain ⟨m1, m2⟩ := hX.matmul hcx
  rw [hC.1] at m2
  obtain ⟨c1, c2, c3⟩ := m2.to2
  obtain ⟨us, hus⟩ := hgu.loc_some hle
  obtain ⟨o1, o2, o3⟩ := (rowOriented_spec hgu hus).1 hne
  obtain ⟨x, hx⟩ := Nd.kronProduct_mat_some (A := c.to2) (b := rowOriented us) (c := rowOriented us)
    (by rw [c2, o1])
  obtain ⟨q1, b, rfl, q3, q4, q5⟩ := Nd.kronProduct_mat hx
  rw [o2] at q4
  have hB : (Nd.mat b).squeeze.Is n (ne * ne) b.e := squeeze_is' (q3.trans c1) q4 hn
  obtain ⟨z, hz, hzi⟩ := hE.zip hB (· - ·)
  obtain ⟨y, hy⟩ := Nd.solveNd_some iv hzi hA.1 hA.2 hi
  exact ⟨y, by simp only [solveGhuu, he, hcx, hus, hx, hz, exc_bind]; exact hy⟩

section
variable {t : Typer} (g : Groups t) (hs : t.nStatic = t.static.length)
include g hs

set_option maxHeartbeats 1000000 in
theorem solveDel2_some {la : LinAlg V} (iv : la.Inverts) {half : V} {ne nz : Nat} {J H sigma : Arr V}
    {gy gu ghuu : Nd V} {G U Y : Nat → Nat → V} (hn : t.n ≠ 1)
    (hf : t.nF ≠ 1 ∨ t.nT ≠ 1) (hf0 : t.nF ≠ 0) (hne : t.nT = 1 ∨ ne ≠ 1) (hJ : J.r = t.n) (hH : H.r = t.n)
    (hHc : H.c = nz * nz) (hlt : ∀ r c v, t.cell r c = some v → v < J.c) (hJz : J.c = nz)
    (hgy : gy.Is t.n t.nT G) (hgu : gu.Is t.n ne U) (hY : ghuu.Is t.n (ne * ne) Y)
    (hsig : sigma.r = ne ∧ sigma.c = ne)
    (inj : ∀ v : Nat → V, (∀ i < t.n, (sumTo t.n fun j => del2Ent t J G i j * v j) = 0) → ∀ j < t.n, v j = 0) :
    ∃ del2, solveDel2 la half t nz gy gu ghuu sigma J H = .ok del2 := by
  have gt := g.total
  obtain ⟨sg1, sg2⟩ := hsig
  obtain ⟨Jf, hJf⟩ : ∃ x, J.cols (t.drCols 2) = .ok x := timed_some hlt _ _ 2
  have hcl : ∀ c ∈ t.drCols 2, c < nz := by
    intro c hc
    unfold Arr.cols at hJf
    split at hJf
    · rename_i hall
      have := of_decide_eq_true (List.all_eq_true.mp hall c hc)
      omega
    · cases hJf
  obtain ⟨fsq, hfsq⟩ := squareCols_some hcl
  obtain ⟨Hf, hHf⟩ := Arr.cols_some (a := H) (cs := fsq) (by
    intro c hc
    rw [hHc]
    exact squareCols_lt hfsq c hc)
  have hlen : (t.drCols 2).length = t.nF := by
    rw [drCols_two g, List.length_map, List.length_range']; rfl
  have hcol : ∀ f < t.nF, (t.drCols 2)[f]?.getD 0 = t.col 2 (t.f0 + f) := by
    intro f hf
    rw [drCols_two g, List.getElem?_map,
      List.getElem?_range' (show f < t.mixed.length + t.pureForward.length from hf)]
    simp [Typer.f0]
  obtain ⟨J1, J2, J3⟩ := cols_e hJf
  rw [hlen] at J2
  obtain ⟨H1, H2, -⟩ := cols_e hHf
  obtain ⟨F1, -, -⟩ := squareCols_ok hfsq
  rw [hlen] at F1
  rw [F1] at H2
  obtain ⟨guf, hguf⟩ := hgu.rows_some (mask_lt g).2
  obtain ⟨gyf, hgyf⟩ := hgy.rows_some (mask_lt g).2
  obtain ⟨huf, hhuf⟩ := hY.rows_some (mask_lt g).2
  have iguf := rows_fore g hgu hguf
  have igyf := rows_fore g hgy hgyf
  have ihuf := rows_fore g hY hhuf
  obtain ⟨B1, hB1⟩ := iguf.kronProduct_some H2
  obtain ⟨-, b2⟩ := iguf.kronProduct (by
    by_cases hnf : t.nF = 1
    · exact .inr (by omega)
    · left
      rw [H2]
      exact fun h1 => hnf (Nat.eq_one_of_mul_eq_one_left h1)) hB1
  rw [H1, hH] at b2
  obtain ⟨x, hx⟩ := ihuf.matmul_some (a := Jf) J2
  obtain ⟨-, x2⟩ := ihuf.matmul hx
  rw [J1, hJ] at x2
  obtain ⟨z, hz, hzi⟩ := x2.zip b2 (· + ·)
  -- the right-hand side
  have hw : ∃ w, Nd.matmulScalar z (.vec (sigma.c * sigma.r) fun k => sigma.e (k % sigma.r) (k / sigma.r)) = .ok w ∧
      ∃ f, w.Is t.n 1 f := by
    rw [sg1, sg2]
    by_cases h1 : ne = 1
    · subst h1
      cases z with
      | num x => exact hzi.elim
      | mat a => exact absurd rfl hzi.1
      | vec n e =>
        have e1 : (Nd.vec n e).item? = none := by
          have := hzi.2.1
          simp only [Nd.item?]
          rw [if_neg (by omega)]
        have e2 : (Nd.vec (1 * 1) fun k => sigma.e (k % 1) (k / 1)).item? = some (sigma.e 0 0) := rfl
        unfold Nd.matmulScalar
        rw [e1, e2]
        exact ⟨_, rfl, _, hzi.map (· * sigma.e 0 0)⟩
    · have hsq : ne * ne ≠ 1 := fun h2 => h1 (Nat.eq_one_of_mul_eq_one_left h2)
      cases z with
      | num x => exact hzi.elim
      | vec n e => exact absurd hzi.1 hsq
      | mat a =>
        have e1 : (Nd.mat a).item? = none := by
          have := hzi.2.2.1
          simp only [Nd.item?]
          rw [if_neg (by omega)]
        have e2 : (Nd.vec (ne * ne) fun k => sigma.e (k % ne) (k / ne)).item? = none := by
          simp only [Nd.item?]
          rw [if_neg hsq]
        unfold Nd.matmulScalar
        rw [e1, e2]
        simp only [Nd.matmul]
        rw [if_pos hzi.2.2.1]
        exact ⟨_, rfl, fun i _ => sumTo a.c fun k => a.e i k * sigma.e (k % ne) (k / ne), rfl, hzi.2.1,
          fun _ _ => rfl⟩
  obtain ⟨w, hw, wf, hwi⟩ := hw
  -- the left-hand side
  have hlenM : (t.drMask 2).length = t.nF := by
    rw [drMask_two g, List.length_range']; rfl
  obtain ⟨gy1, gy2, gy3⟩ := igyf.to2
  obtain ⟨l, hl⟩ := Arr.hstack_some (a := (Arr.zeros (t.drMask 2).length t.nStatic : Arr V)) (b := gyf.to2)
    (by rw [gy1]; exact hlenM)
  obtain ⟨l0, l1, l2, l3, l4⟩ := Arr.hstack_ok hl
  obtain ⟨d, hd⟩ := Arr.hstack_some (a := l)
    (b := (Arr.zeros (t.drMask 2).length (t.timed t.pureForward 2).length : Arr V)) l1
  obtain ⟨d0, d1, d2, d3, d4⟩ := Arr.hstack_ok hd
  have hdr : d.r = t.nF := by rw [d1, l1]; exact hlenM
  have hlc : l.c = t.nS + t.nT := by
    rw [l2, gy2]
    show t.nStatic + t.nT = _
    rw [hs]; rfl
  have hdc : d.c = t.n := by
    rw [d2, hlc]
    show t.nS + t.nT + (t.timed t.pureForward 2).length = _
    rw [pureForward_timed]
    unfold Typer.nS Typer.nT
    omega
  have hde : ∀ f < t.nF, ∀ j < t.n, d.e f j =
      if t.nS ≤ j ∧ j < t.nS + t.nT then G (t.f0 + f) (j - t.nS) else 0 := by
    intro f hf j hj
    have hz1 : (Arr.zeros (t.drMask 2).length t.nStatic : Arr V).c = t.nS := hs
    by_cases hj2 : j < t.nS + t.nT
    · rw [d3 f j (by omega)]
      by_cases hj1 : j < t.nS
      · rw [l3 f j (by omega), if_neg (by omega)]
        rfl
      · rw [if_pos (by omega)]
        have := l4 f (j - t.nS)
        rw [hz1, Nat.add_sub_cancel' (by omega)] at this
        rw [this, gy3 f hf _ (by omega)]
    · rw [if_neg (by omega)]
      have := d4 f (j - l.c)
      rw [Nat.add_sub_cancel' (by omega)] at this
      rw [this]
      rfl
  have he : (Nd.mat (Arr.eye J.r J.r 0) : Nd V).Is t.n t.n fun i j => if j = i then 1 else 0 :=
    ⟨hn, hJ, hJ, fun _ _ _ _ => rfl⟩
  obtain ⟨eyef, heye⟩ := he.rows_some (mask_lt g).2
  obtain ⟨E, rfl, E1, E2, E3⟩ : ∃ E : Arr V, eyef = .mat E ∧ E.r = t.nF ∧ E.c = t.n ∧
      ∀ f < t.nF, ∀ j < t.n, E.e f j = if j = t.f0 + f then 1 else 0 := by
    have := rows_fore g he heye
    cases eyef with
    | num x => exact this.elim
    | vec n e => exact absurd this.1 hn
    | mat a => exact ⟨a, rfl, this.2.1, this.2.2.1, this.2.2.2⟩
  have hrow : (Nd.mat d).squeeze.row2.r = t.nF ∧ (Nd.mat d).squeeze.row2.c = t.n ∧
      ∀ f < t.nF, ∀ j < t.n, (Nd.mat d).squeeze.row2.e f j = d.e f j := by
    by_cases hnf : t.nF = 1
    · have e1 : (Nd.mat d).squeeze = .vec d.c (d.e 0) := by
        simp only [Nd.squeeze]
        rw [if_pos (by omega), if_neg (by omega)]
      rw [e1]
      refine ⟨hnf.symm, hdc, fun f hf j hj => ?_⟩
      have : f = 0 := by omega
      subst this
      rfl
    · have e1 : (Nd.mat d).squeeze = .mat d := by
        simp only [Nd.squeeze]
        rw [if_neg (by omega), if_neg (by omega)]
      rw [e1]
      exact ⟨hdr, hdc, fun _ _ _ _ => rfl⟩
  obtain ⟨T, hder, T1, T2, T3⟩ : ∃ T : Arr V, Nd.zip (· + ·) (.mat E) (Nd.mat d).squeeze = .ok (.mat T) ∧
      T.r = t.nF ∧ T.c = t.n ∧
      ∀ f < t.nF, ∀ j < t.n, T.e f j = (if j = t.f0 + f then 1 else 0) +
        if t.nS ≤ j ∧ j < t.nS + t.nT then G (t.f0 + f) (j - t.nS) else 0 := by
    have e1 : Nd.zip (· + ·) (.mat E) (Nd.mat d).squeeze = Nd.zip2 (· + ·) E (Nd.mat d).squeeze.row2 := by
      cases (Nd.mat d).squeeze <;> rfl
    rw [e1]
    simp only [Nd.zip2, hrow.1, hrow.2.1, E1, E2, Nd.axis_self, exc_bind]
    refine ⟨_, rfl, rfl, rfl, fun f hf j hj => ?_⟩
    dsimp only
    rw [Nd.along_self hf, Nd.along_self hj, E3 f hf j hj, hrow.2.2 f hf j hj, hde f hf j hj]
  have hT : (Nd.mat T).Is t.nF t.n T.e := ⟨hn, T1, T2, fun _ _ _ _ => rfl⟩
  obtain ⟨y, hy⟩ := hT.matmul_some (a := Jf) J2
  obtain ⟨-, y2⟩ := hT.matmul hy
  rw [J1, hJ] at y2
  have hcj : (Nd.mat (currentJac t J)).Is t.n t.n (currentJac t J).e := ⟨hn, rfl, rfl, fun _ _ _ _ => rfl⟩
  obtain ⟨L, hL, hLi⟩ := hcj.zip y2 (· + ·)
  have hLi := hLi.congr (g := del2Ent t J G) (by
    intro i hi j hj
    unfold del2Ent
    rw [currentJac_e g J hj]
    congr 1
    refine sumTo_congr fun f hf => ?_
    rw [J3, hcol f hf, T3 f hf j hj])
  cases L with
  | num x => exact hLi.elim
  | vec n e => exact absurd hLi.1 hn
  | mat L =>
    obtain ⟨i, hi⟩ := arr_inv_of_inj (a := L) hLi.2.1 hLi.2.2.1 (by
      intro v hv
      refine inj v fun i hi => ?_
      rw [← hv i hi]
      exact sumTo_congr fun j hj => by rw [hLi.2.2.2 i hi j hj])
    obtain ⟨r, hr⟩ := Nd.solveNd_some iv (hwi.map (- ·)) hLi.2.1 hLi.2.2.1 hi
    refine ⟨r.map (half * ·), ?_⟩
    simp only [solveDel2, hfsq, hHf, hguf, hB1, hJf, hhuf, hx, hz, hw, hgyf, hl, hd, heye, hder, exc_bind]
    rw [if_neg (fun h => h hJ)]
    simp only [hy, hL, hr, exc_bind]

end

end Pynare
