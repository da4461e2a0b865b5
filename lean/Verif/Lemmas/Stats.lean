import Verif.Lemmas.Moments
import Verif.Lemmas.Simul
import Verif.Spec.Stats
import Mathlib.Algebra.Order.Archimedean.Basic
/-!
# Lemmas about moments
-/

namespace Pynare

open Matrix

set_option linter.unusedSectionVars false

variable {V : Type}

/-- the corner of an array as a matrix -/
def Arr.toM (a : Arr V) (n m : Nat) : Matrix (Fin n) (Fin m) V := Matrix.of fun i j => a.e i j

theorem Arr.rows_ok {a x : Arr V} {rs : List Nat} (h : a.rows rs = .ok x) :
    x.r = rs.length ∧ x.c = a.c ∧ (∀ i j, x.e i j = a.e (rs[i]?.getD 0) j) ∧ ∀ i ∈ rs, i < a.r := by
  unfold Arr.rows at h
  split at h
  · rename_i hs
    have := Except.ok.inj h
    subst this
    refine ⟨rfl, rfl, fun _ _ => rfl, fun i hi => ?_⟩
    simpa using List.all_eq_true.mp hs i hi
  · cases h

theorem Arr.storedRows_ok {a x : Arr V} {rs : List Nat} (h : a.storedRows rs = .ok x) (ha : a.r ≠ 1) :
    x.r = rs.length ∧ x.c = a.c ∧ (∀ i j, x.e i j = a.e (rs[i]?.getD 0) j) ∧ ∀ i ∈ rs, i < a.r := by
  unfold Arr.storedRows at h
  rw [if_neg (by omega), if_neg ha] at h
  exact Arr.rows_ok h

section
variable [CommRing V]

theorem toM_sum {n : Nat} {M : Type} [AddCommMonoid M] (f : Nat → M) : sumTo n f = ∑ i : Fin n, f i :=
  sumTo_enum (IsEnum.fin n) f

theorem sandwich_ok {a x b : Arr V} (h : sandwich a x = .ok b) :
    x.r = a.c ∧ x.c = a.c ∧ b.r = a.r ∧ b.c = a.r ∧ ∀ {α β : Type} (ρ : α → Nat) (σ : β → Nat) (k : Nat), a.c = k →
      b.blk ρ σ = a.blk ρ (fun i : Fin k => i.val) * x.toM k k * (a.blk σ (fun i : Fin k => i.val))ᵀ := by
  unfold sandwich at h
  obtain ⟨y, h1, h2⟩ := Except.bind_eq_ok h
  obtain ⟨e1, e2, e3, e4⟩ := Arr.dot_ok h1
  obtain ⟨f1, f2, f3, f4⟩ := Arr.dot_ok h2
  have e1 : x.c = a.c := e1
  refine ⟨by omega, e1, f2, by rw [f3, e3]; rfl, ?_⟩
  intro α β ρ σ k hk
  rw [f4 ρ (fun i : Fin k => i.val) σ (by rw [hk]; exact IsEnum.fin k), Matrix.mul_assoc,
    e4 (fun i : Fin k => i.val) (fun i : Fin k => i.val) σ (by rw [e1, hk]; exact IsEnum.fin k), Arr.tr_blk]
  rfl

theorem kalman_ok {la : LinAlg V} {t : Typer} {s : Space V} {gy gu : Arr V} {AB : Arr V × Arr V}
    (h : kalmanTransition la t s gy gu = .ok AB) :
    s.verify la t = .ok () ∧ gy.storedRows (t.permute t.drOrder).state = .ok AB.1 ∧ AB.1.c = AB.1.r ∧
      gu.storedRows (t.permute t.drOrder).state = .ok AB.2 := by
  unfold kalmanTransition at h
  obtain ⟨_, h1, h⟩ := Except.bind_eq_ok h
  obtain ⟨A, h2, h⟩ := Except.bind_eq_ok h
  split at h
  · cases h
  · rename_i hc
    obtain ⟨B, h3, h⟩ := Except.bind_eq_ok h
    have := Except.ok.inj h
    subst this
    exact ⟨h1, h2, not_not.mp hc, h3⟩

theorem stateVar_ok {la : LinAlg V} {lyap : Lyap V} {t : Typer} {s : Space V} {gy gu sigma X : Arr V}
    (h : stateVar la lyap t s gy gu sigma = .ok X) :
    ∃ A B Q, kalmanTransition la t s gy gu = .ok (A, B) ∧ sandwich B sigma = .ok Q ∧ lyap A Q = .ok X := by
  unfold stateVar at h
  obtain ⟨AB, h1, h⟩ := Except.bind_eq_ok h
  obtain ⟨Q, h2, h⟩ := Except.bind_eq_ok h
  exact ⟨AB.1, AB.2, Q, h1, h2, h⟩

theorem covArr_ok {la : LinAlg V} {lyap : Lyap V} {t : Typer} {s : Space V} {gy gu sigma C : Arr V}
    (h : covArr la lyap t s gy gu sigma = .ok C) :
    ∃ gyd gud X x u, gy.storedRows t.dcOrder = .ok gyd ∧ gu.storedRows t.dcOrder = .ok gud ∧
      stateVar la lyap t s gy gu sigma = .ok X ∧ sandwich gyd X = .ok x ∧ sandwich gud sigma = .ok u ∧
      x.add u = .ok C := by
  unfold covArr at h
  obtain ⟨gyd, h1, h⟩ := Except.bind_eq_ok h
  obtain ⟨gud, h2, h⟩ := Except.bind_eq_ok h
  obtain ⟨X, h3, h⟩ := Except.bind_eq_ok h
  obtain ⟨x, h4, h⟩ := Except.bind_eq_ok h
  obtain ⟨u, h5, h⟩ := Except.bind_eq_ok h
  exact ⟨gyd, gud, X, x, u, h1, h2, h3, h4, h5, h⟩

/-- row of the policy function that belongs to a variable as declared -/
def dcRow (t : Typer) (c : Nat) : Nat := t.dcOrder[c]?.getD 0

/-- row of the policy function that belongs to a state -/
def stRow (t : Typer) (j : Nat) : Nat := (t.permute t.drOrder).state[j]?.getD 0

/-- responses of the declared variables to the states -/
def gM (t : Typer) (gy : Arr V) : Matrix (Fin t.n) (Fin t.nBackward) V := Matrix.of fun c j => gy.e (dcRow t c) j
/-- responses of the declared variables to the shocks -/
def hM (t : Typer) (m : Nat) (gu : Arr V) : Matrix (Fin t.n) (Fin m) V := Matrix.of fun c j => gu.e (dcRow t c) j
/-- responses of the states to the states -/
def aM (t : Typer) (gy : Arr V) : Matrix (Fin t.nBackward) (Fin t.nBackward) V :=
  Matrix.of fun c j => gy.e (stRow t c) j
/-- responses of the states to the shocks -/
def bM (t : Typer) (m : Nat) (gu : Arr V) : Matrix (Fin t.nBackward) (Fin m) V :=
  Matrix.of fun c j => gu.e (stRow t c) j

theorem state_length {t : Typer} (hp : t.drOrder.Perm (List.range t.n)) :
    (t.permute t.drOrder).state.length = t.nBackward := by
  have := (drState_length hp).1
  unfold Typer.drState at this
  simpa using this

theorem nBackward_le (t : Typer) : t.nBackward ≤ t.n := by
  have := List.countP_le_length (p := fun c => t.has 0 c) (l := List.range t.n)
  simpa [Typer.nBackward] using this

theorem n_ne_one {t : Typer} (hp : t.drOrder.Perm (List.range t.n)) {gy gyd : Arr V} (hr : gy.r = t.n)
    (hc : gy.c = t.nBackward) (h : gy.storedRows t.dcOrder = .ok gyd) : t.n ≠ 1 := by
  intro hn
  have hb := nBackward_le t
  obtain ⟨hl, hdc, -⟩ := C30_inverse t hp
  unfold Arr.storedRows at h
  by_cases h1 : gy.c = 1
  · rw [if_pos ⟨by omega, h1⟩] at h; cases h
  · rw [if_neg (by omega), if_pos (by omega)] at h
    obtain ⟨-, -, -, hr'⟩ := Arr.rows_ok h
    obtain ⟨i, hi, -⟩ := hdc 0 (by omega)
    have := hr' i (List.mem_of_getElem? hi)
    have : i < gy.c := this
    omega

theorem stateVar_spec {la : LinAlg V} {lyap : Lyap V} (ly : LyapExact lyap) {t : Typer}
    (hp : t.drOrder.Perm (List.range t.n)) {s : Space V} {gy gu sigma X : Arr V} (hr : gy.r = t.n)
    (hc : gy.c = t.nBackward) (hu : gu.r = t.n) (hn : t.n ≠ 1)
    (h : stateVar la lyap t s gy gu sigma = .ok X) :
    sigma.r = gu.c ∧ sigma.c = gu.c ∧ X.r = t.nBackward ∧ X.c = t.nBackward ∧
    X.toM t.nBackward t.nBackward = aM t gy * X.toM t.nBackward t.nBackward * (aM t gy)ᵀ +
      bM t gu.c gu * sigma.toM gu.c gu.c * (bM t gu.c gu)ᵀ := by
  obtain ⟨A, B, Q, h1, h2, h3⟩ := stateVar_ok h
  obtain ⟨-, k1, k2, k3⟩ := kalman_ok h1
  obtain ⟨a1, a2, a3, -⟩ := Arr.storedRows_ok k1 (by omega)
  obtain ⟨b1, b2, b3, -⟩ := Arr.storedRows_ok k3 (by omega)
  rw [state_length hp] at a1 b1
  obtain ⟨q1, q2, q3, q4, q5⟩ := sandwich_ok h2
  dsimp only at a1 a2 a3 b1 b2 b3 k2
  obtain ⟨x1, x2, x3⟩ := ly A Q X k2 (by omega) (by omega) h3
  refine ⟨by omega, by omega, by omega, by omega, ?_⟩
  ext i j
  have hi := i.2
  have hj := j.2
  have hQ := congrFun (congrFun (q5 (fun i : Fin t.nBackward => i.val) (fun i : Fin t.nBackward => i.val) _ b2) i) j
  have eB : B.blk (fun i : Fin t.nBackward => i.val) (fun i : Fin gu.c => i.val) = bM t gu.c gu := by
    ext i j; exact b3 i j
  rw [eB] at hQ
  have hx := x3 i (by omega) j (by omega)
  have eA : ∀ i j : Nat, A.e i j = gy.e (stRow t i) j := a3
  rw [Matrix.add_apply]
  show X.e i j = _
  rw [hx]
  congr 1
  rw [a1, toM_sum, Matrix.mul_apply]
  simp only [Matrix.mul_apply, Finset.sum_mul]
  rw [Finset.sum_comm]
  refine Finset.sum_congr rfl fun k _ => ?_
  rw [toM_sum]
  refine Finset.sum_congr rfl fun l _ => ?_
  rw [eA, eA]
  rfl

theorem covArr_spec {la : LinAlg V} {lyap : Lyap V} (ly : LyapExact lyap) {t : Typer}
    (hp : t.drOrder.Perm (List.range t.n)) {s : Space V} {gy gu sigma C : Arr V} (hr : gy.r = t.n)
    (hc : gy.c = t.nBackward) (hu : gu.r = t.n)
    (h : covArr la lyap t s gy gu sigma = .ok C) :
    t.n ≠ 1 ∧ sigma.r = gu.c ∧ sigma.c = gu.c ∧ C.r = t.n ∧ C.c = t.n ∧
    ∃ X, stateVar la lyap t s gy gu sigma = .ok X ∧ C.toM t.n t.n =
      gM t gy * X.toM t.nBackward t.nBackward * (gM t gy)ᵀ + hM t gu.c gu * sigma.toM gu.c gu.c * (hM t gu.c gu)ᵀ := by
  obtain ⟨gyd, gud, X, x, u, h1, h2, h3, h4, h5, h6⟩ := covArr_ok h
  have hn := n_ne_one hp hr hc h1
  obtain ⟨s1, s2, x1, x2, -⟩ := stateVar_spec ly hp hr hc hu hn h3
  have hl := (C30_inverse t hp).1
  obtain ⟨a1, a2, a3, -⟩ := Arr.storedRows_ok h1 (by omega)
  obtain ⟨b1, b2, b3, -⟩ := Arr.storedRows_ok h2 (by omega)
  obtain ⟨p1, p2, p3, p4, p5⟩ := sandwich_ok h4
  obtain ⟨q1, q2, q3, q4, q5⟩ := sandwich_ok h5
  obtain ⟨c1, c2, c3, c4, c5⟩ := Arr.add_ok h6
  refine ⟨hn, s1, s2, by omega, by omega, X, h3, ?_⟩
  have h7 := c5 (fun i : Fin t.n => i.val) (fun i : Fin t.n => i.val)
  rw [p5 _ _ _ (a2.trans hc), q5 _ _ _ b2] at h7
  have eG : gyd.blk (fun i : Fin t.n => i.val) (fun i : Fin t.nBackward => i.val) = gM t gy := by
    ext i j; exact a3 i j
  have eH : gud.blk (fun i : Fin t.n => i.val) (fun i : Fin gu.c => i.val) = hM t gu.c gu := by
    ext i j; exact b3 i j
  rw [eG, eH] at h7
  exact h7

/-! ### processes -/

theorem drState_row {t : Typer} (hp : t.drOrder.Perm (List.range t.n)) {j : Nat} (hj : j < t.nBackward) :
    t.drOrder[stRow t j]? = some (t.drState[j]?.getD 0) := by
  have hg := (C30_permutation_iff_partial t).mp hp
  obtain ⟨-, -, -, -, -, b6, -⟩ := C69_blocks t hg
  have hl := state_length hp
  have hlen := (drState_length hp).2.1
  have hj' : j < (t.permute t.drOrder).state.length := by omega
  have h1 : t.drState[j]? = some (t.drOrder[stRow t j]?.getD 0) := by
    unfold Typer.drState stRow
    rw [List.getElem?_map, List.getElem?_eq_getElem hj']
    rfl
  have hlt : stRow t j < t.n := by
    have hm : stRow t j ∈ (t.permute t.drOrder).state := by
      unfold stRow
      rw [List.getElem?_eq_getElem hj']
      exact List.getElem_mem hj'
    have hn : (t.permute t.drOrder).n = t.n := by
      show t.drOrder.length = t.n
      exact hlen
    have := List.mem_range.mp (List.mem_filter.mp hm).1
    omega
  rw [h1, List.getElem?_eq_getElem (by omega : stRow t j < t.drOrder.length)]
  rfl

variable {M : Type} [AddCommGroup M] [Module V M]

theorem LinearProcess.toState {t : Typer} (hp : t.drOrder.Perm (List.range t.n)) {gy gu sigma : Arr V}
    {cov : M →ₗ[V] M →ₗ[V] V} {y u : Nat → Nat → M} (p : LinearProcess t gu.c gy gu sigma cov y u) :
    StateProcess cov (aM t gy) (bM t gu.c gu) (sigma.toM gu.c gu.c)
      (fun k (j : Fin t.nBackward) => y k (t.drState[j.val]?.getD 0)) (fun k (l : Fin gu.c) => u k l) where
  step k := by
    funext j
    rw [p.policy k _ _ (drState_row hp j.2), toM_sum, toM_sum]
    rfl
  symm := p.symm
  within k := by ext i j; exact p.within k i i.2 j j.2
  across k k' h := by ext i j; exact p.across k k' h i i.2 j j.2
  start k := by ext i j; exact p.start k _ j j.2

theorem LinearProcess.declared {t : Typer} (hp : t.drOrder.Perm (List.range t.n)) {gy gu sigma : Arr V}
    {cov : M →ₗ[V] M →ₗ[V] V} {y u : Nat → Nat → M} (p : LinearProcess t gu.c gy gu sigma cov y u) (k : Nat) :
    (fun c : Fin t.n => y (k + 1) c) = fun c => act (gM t gy) (fun j : Fin t.nBackward => y k (t.drState[j.val]?.getD 0)) c +
      act (hM t gu.c gu) (fun l : Fin gu.c => u (k + 1) l) c := by
  funext c
  obtain ⟨i, h1, h2⟩ := (C30_inverse t hp).2.1 c c.2
  have : dcRow t c = i := by unfold dcRow; rw [h1]; rfl
  rw [p.policy k _ _ h2, toM_sum, toM_sum]
  subst this
  rfl

theorem autocovLoop_ok {gyd A : Arr V} {k m : Nat} (hg : gyd.c = k) (hA : A.r = k) (hA' : A.c = k) {p : Nat} :
    ∀ {o : Arr V} {L : List (Arr V)}, o.c = m → autocovLoop gyd A p o = .ok L → L.length = p ∧
    ∀ i < p, ∃ a, L[i]? = some a ∧ a.r = gyd.r ∧ a.c = m ∧ ∀ {α : Type} (ρ : α → Nat),
      a.blk ρ (fun j : Fin m => j.val) = gyd.blk ρ (fun j : Fin k => j.val) * (A.toM k k ^ i * o.toM k m) := by
  induction p with
  | zero =>
    intro o L _ h
    have := Except.ok.inj h
    subst this
    exact ⟨rfl, fun i hi => absurd hi (by omega)⟩
  | succ p ih =>
    intro o L ho h
    rw [autocovLoop] at h
    obtain ⟨v, h1, h⟩ := Except.bind_eq_ok h
    obtain ⟨o', h2, h⟩ := Except.bind_eq_ok h
    obtain ⟨rest, h3, h⟩ := Except.bind_eq_ok h
    have := Except.ok.inj h
    subst this
    obtain ⟨v1, v2, v3, v4⟩ := Arr.dot_ok h1
    obtain ⟨w1, w2, w3, w4⟩ := Arr.dot_ok h2
    obtain ⟨l1, l2⟩ := ih (by omega) h3
    refine ⟨by simp [l1], ?_⟩
    intro i hi
    cases i with
    | zero =>
      refine ⟨v, rfl, v2, by omega, ?_⟩
      intro α ρ
      rw [v4 ρ (fun j : Fin k => j.val) _ (by rw [hg]; exact IsEnum.fin k), pow_zero, Matrix.one_mul]
      rfl
    | succ i =>
      obtain ⟨a, e1, e2, e3, e4⟩ := l2 i (by omega)
      refine ⟨a, by simpa using e1, e2, e3, ?_⟩
      intro α ρ
      have ho' : o'.toM k m = A.toM k k * o.toM k m :=
        w4 (fun j : Fin k => j.val) (fun j : Fin k => j.val) (fun j : Fin m => j.val) (by rw [hA']; exact IsEnum.fin k)
      rw [e4, ho', pow_succ, Matrix.mul_assoc (A.toM k k ^ i)]

theorem autocov_spec {la : LinAlg V} {lyap : Lyap V} (ly : LyapExact lyap) {t : Typer}
    (hp : t.drOrder.Perm (List.range t.n)) {s : Space V} {gy gu sigma : Arr V} {L : List (Arr V)} {q : Nat}
    (hr : gy.r = t.n) (hc : gy.c = t.nBackward) (hu : gu.r = t.n)
    (h : autocov la lyap t s gy gu sigma q = .ok L) :
    L.length = q ∧ ∃ X, stateVar la lyap t s gy gu sigma = .ok X ∧ ∀ i < q, ∃ a, L[i]? = some a ∧ a.r = t.n ∧ a.c = t.n ∧
      a.toM t.n t.n = gM t gy * (aM t gy ^ i * (aM t gy * X.toM t.nBackward t.nBackward * (gM t gy)ᵀ +
        bM t gu.c gu * sigma.toM gu.c gu.c * (hM t gu.c gu)ᵀ)) := by
  unfold autocov at h
  obtain ⟨X, h1, h⟩ := Except.bind_eq_ok h
  obtain ⟨AB, h2, h⟩ := Except.bind_eq_ok h
  obtain ⟨gyd, h3, h⟩ := Except.bind_eq_ok h
  obtain ⟨gud, h4, h⟩ := Except.bind_eq_ok h
  obtain ⟨x0, h5, h⟩ := Except.bind_eq_ok h
  obtain ⟨x, h6, h⟩ := Except.bind_eq_ok h
  obtain ⟨u0, h7, h⟩ := Except.bind_eq_ok h
  obtain ⟨u, h8, h⟩ := Except.bind_eq_ok h
  obtain ⟨o, h9, h⟩ := Except.bind_eq_ok h
  have hn := n_ne_one hp hr hc h3
  obtain ⟨s1, s2, x1, x2, -⟩ := stateVar_spec ly hp hr hc hu hn h1
  obtain ⟨-, k1, k2, k3⟩ := kalman_ok h2
  obtain ⟨A1, A2, A3, -⟩ := Arr.storedRows_ok k1 (by omega)
  obtain ⟨B1, B2, B3, -⟩ := Arr.storedRows_ok k3 (by omega)
  rw [state_length hp] at A1 B1
  have hl := (C30_inverse t hp).1
  obtain ⟨G1, G2, G3, -⟩ := Arr.storedRows_ok h3 (by omega)
  obtain ⟨H1, H2, H3, -⟩ := Arr.storedRows_ok h4 (by omega)
  obtain ⟨-, e2, e3, e4⟩ := Arr.dot_ok h5
  obtain ⟨-, f2, f3, f4⟩ := Arr.dot_ok h6
  obtain ⟨-, i2, i3, i4⟩ := Arr.dot_ok h7
  obtain ⟨-, j2, j3, j4⟩ := Arr.dot_ok h8
  obtain ⟨-, -, o3, o4, o5⟩ := Arr.add_ok h9
  have e3 : x0.c = gyd.r := e3
  obtain ⟨l1, l2⟩ := autocovLoop_ok (m := t.n) (k := t.nBackward) (G2.trans hc) A1 (by omega) (by omega) h
  refine ⟨l1, X, h1, fun i hi => ?_⟩
  obtain ⟨a, a1, a2, a3, a4⟩ := l2 i hi
  refine ⟨a, a1, by omega, a3, ?_⟩
  have a5 := a4 (fun j : Fin t.n => j.val)
  have eG : gyd.blk (fun i : Fin t.n => i.val) (fun i : Fin t.nBackward => i.val) = gM t gy := by
    ext i j; exact G3 i j
  have eH : gud.blk (fun i : Fin t.n => i.val) (fun i : Fin gu.c => i.val) = hM t gu.c gu := by
    ext i j; exact H3 i j
  have eA : AB.1.blk (fun i : Fin t.nBackward => i.val) (fun i : Fin t.nBackward => i.val) = aM t gy := by
    ext i j; exact A3 i j
  have eB : AB.2.blk (fun i : Fin t.nBackward => i.val) (fun i : Fin gu.c => i.val) = bM t gu.c gu := by
    ext i j; exact B3 i j
  have eo := o5 (fun i : Fin t.nBackward => i.val) (fun i : Fin t.n => i.val)
  rw [f4 _ (fun i : Fin t.nBackward => i.val) _ (by rw [A2, hc]; exact IsEnum.fin _),
    e4 _ (fun i : Fin t.nBackward => i.val) _ (by rw [x2]; exact IsEnum.fin _),
    j4 _ (fun i : Fin gu.c => i.val) _ (by rw [B2]; exact IsEnum.fin _),
    i4 _ (fun i : Fin gu.c => i.val) _ (by rw [s2]; exact IsEnum.fin _), Arr.tr_blk, Arr.tr_blk, eG, eH, eA, eB] at eo
  rw [eG] at a5
  have e0 : a.toM t.n t.n = gM t gy * (AB.1.toM t.nBackward t.nBackward ^ i * o.toM t.nBackward t.n) := a5
  have e6 : AB.1.toM t.nBackward t.nBackward = aM t gy := eA
  have e7 : o.toM t.nBackward t.n = _ := eo
  rw [e0, e6, e7, Matrix.mul_assoc (aM t gy), Matrix.mul_assoc (bM t gu.c gu)]
  rfl

end

section order
variable [Field V] [LinearOrder V] [IsStrictOrderedRing V]

theorem iterate_pow (t : Typer) (gy : Arr V) (j : Fin t.nBackward) (k : Nat) :
    ∀ i : Fin t.nBackward, iterate (stateRows t gy) (fun i => if i = j.val then 1 else 0) k i = (aM t gy ^ k) i j := by
  induction k with
  | zero =>
    intro i
    show (if i.val = j.val then (1 : V) else 0) = (1 : Matrix _ _ V) i j
    rw [Matrix.one_apply]
    by_cases h : i = j
    · rw [if_pos h, if_pos (congrArg _ h)]
    · rw [if_neg h, if_neg (fun e => h (Fin.ext e))]
  | succ k ih =>
    intro i
    rw [pow_succ', Matrix.mul_apply]
    show sumTo t.nBackward _ = _
    rw [toM_sum]
    refine Finset.sum_congr rfl fun l _ => ?_
    rw [ih l]
    rfl

theorem stable_vanish {t : Typer} {gy : Arr V} (h : Stable (stateRows t gy)) : PowersVanish (aM t gy) := by
  intro ε hε
  have h1 : ∀ j : Fin t.nBackward, ∃ k0, ∀ k ≥ k0, ∀ i : Fin t.nBackward, |(aM t gy ^ k) i j| < ε := by
    intro j
    obtain ⟨k0, h0⟩ := h (fun i => if i = j.val then 1 else 0) ε hε
    refine ⟨k0, fun k hk i => ?_⟩
    rw [← iterate_pow]
    exact h0 k hk i i.2
  choose f hf using h1
  refine ⟨∑ j, f j, fun k hk i j => hf j k ?_ i⟩
  have := Finset.single_le_sum (f := f) (fun _ _ => Nat.zero_le _) (Finset.mem_univ j)
  omega

/-- a sufficient condition for stability: with suitable weights the rows sum to less than one -/
theorem stable_of_weights [Archimedean V] {A : Arr V} (w : Nat → V) {ρ : V} (hw : ∀ i < A.r, 0 < w i)
    (hρ0 : 0 ≤ ρ) (hρ : ρ < 1) (h : ∀ i < A.r, (sumTo A.r fun j => |A.e i j| * w j) ≤ ρ * w i) : Stable A := by
  intro x ε hε
  have hb : ∃ b : V, 0 < b ∧ ∀ i < A.r, |x i| ≤ b * w i := by
    refine ⟨1 + ∑ i : Fin A.r, |x i| / w i, ?_, ?_⟩
    · have : 0 ≤ ∑ i : Fin A.r, |x i| / w i := Finset.sum_nonneg fun i _ => div_nonneg (abs_nonneg _) (hw i i.2).le
      linarith
    · intro i hi
      have h1 := Finset.single_le_sum (f := fun i : Fin A.r => |x i| / w i)
        (fun i _ => div_nonneg (abs_nonneg _) (hw i i.2).le) (Finset.mem_univ ⟨i, hi⟩)
      have h2 : |x i| / w i ≤ 1 + ∑ i : Fin A.r, |x i| / w i := by
        have : |x i| / w i ≤ ∑ i : Fin A.r, |x i| / w i := h1
        linarith
      exact (div_le_iff₀ (hw i hi)).mp h2
  obtain ⟨b, hb0, hb⟩ := hb
  have hk : ∀ k, ∀ i < A.r, |iterate A x k i| ≤ b * ρ ^ k * w i := by
    intro k
    induction k with
    | zero => intro i hi; show |x i| ≤ _; simpa using hb i hi
    | succ k ih =>
      intro i hi
      have h1 : |iterate A x (k + 1) i| ≤ sumTo A.r fun j => |A.e i j| * (b * ρ ^ k * w j) := by
        show |sumTo A.r fun j => A.e i j * iterate A x k j| ≤ _
        rw [toM_sum, toM_sum]
        refine (Finset.abs_sum_le_sum_abs _ _).trans (Finset.sum_le_sum fun j _ => ?_)
        rw [abs_mul]
        exact mul_le_mul_of_nonneg_left (ih j j.2) (abs_nonneg _)
      have h2 : (sumTo A.r fun j => |A.e i j| * (b * ρ ^ k * w j)) = b * ρ ^ k * sumTo A.r fun j => |A.e i j| * w j := by
        rw [toM_sum, toM_sum, Finset.mul_sum]
        exact Finset.sum_congr rfl fun j _ => by ring
      have h3 := mul_le_mul_of_nonneg_left (h i hi) (mul_nonneg hb0.le (pow_nonneg hρ0 k))
      have h4 : b * ρ ^ k * (ρ * w i) = b * ρ ^ (k + 1) * w i := by ring
      linarith
  have hm : ∃ B : V, 0 < B ∧ ∀ i < A.r, w i ≤ B := by
    refine ⟨1 + ∑ i : Fin A.r, w i, ?_, ?_⟩
    · have : 0 ≤ ∑ i : Fin A.r, w i := Finset.sum_nonneg fun i _ => (hw i i.2).le
      linarith
    · intro i hi
      have h1 := Finset.single_le_sum (f := fun i : Fin A.r => w i) (fun i _ => (hw i i.2).le) (Finset.mem_univ ⟨i, hi⟩)
      have : w i ≤ ∑ i : Fin A.r, w i := h1
      linarith
  obtain ⟨B, hB0, hB⟩ := hm
  obtain ⟨k0, h0⟩ := exists_pow_lt_of_lt_one (div_pos hε (mul_pos hb0 hB0)) hρ
  refine ⟨k0, fun k hk' i hi => ?_⟩
  have h1 := hk k i hi
  have h2 : ρ ^ k ≤ ρ ^ k0 := pow_le_pow_of_le_one hρ0 hρ.le hk'
  have h3 : b * ρ ^ k * w i ≤ b * ρ ^ k0 * B :=
    mul_le_mul (mul_le_mul_of_nonneg_left h2 hb0.le) (hB i hi) (hw i hi).le (mul_nonneg hb0.le (pow_nonneg hρ0 _))
  have h4 : ρ ^ k0 * (b * B) < ε := (lt_div_iff₀ (mul_pos hb0 hB0)).mp h0
  have h5 : b * ρ ^ k0 * B = ρ ^ k0 * (b * B) := by ring
  linarith

theorem posSemi_iff {C : Arr V} {n : Nat} (hn : C.r = n) : PosSemi C ↔ PosM (C.toM n n) := by
  subst hn
  have key : ∀ w : Nat → V, (sumTo C.r fun i => sumTo C.r fun j => w i * C.e i j * w j) =
      (fun i : Fin C.r => w i) ⬝ᵥ (C.toM C.r C.r *ᵥ fun i : Fin C.r => w i) := by
    intro w
    rw [toM_sum]
    refine Finset.sum_congr rfl fun i _ => ?_
    rw [toM_sum, Matrix.mulVec, dotProduct, Finset.mul_sum]
    exact Finset.sum_congr rfl fun j _ => by simp only [Arr.toM, Matrix.of_apply]; ring
  constructor
  · intro h w
    have := h fun i => if hi : i < C.r then w ⟨i, hi⟩ else 0
    rw [key] at this
    have e : (fun i : Fin C.r => if hi : i.val < C.r then w ⟨i, hi⟩ else 0) = w := by
      funext i; rw [dif_pos i.2]
    rw [e] at this
    exact this
  · intro h w
    rw [key]
    exact h _

theorem symmArr_toM {C : Arr V} {n : Nat} (hr : C.r = n) (hc : C.c = n) : SymmArr C ↔ (C.toM n n)ᵀ = C.toM n n := by
  subst hr
  constructor
  · intro h; ext i j; exact h.2 j j.2 i i.2
  · intro h; exact ⟨hc, fun i hi j hj => (congrFun (congrFun h ⟨i, hi⟩) ⟨j, hj⟩).symm⟩

/-- the reported covariance matrix is symmetric and positive semidefinite -/
theorem cov_psd {la : LinAlg V} {lyap : Lyap V} (ly : LyapExact lyap) {t : Typer}
    (hp : t.drOrder.Perm (List.range t.n)) {s : Space V} {gy gu sigma C : Arr V} (hr : gy.r = t.n)
    (hc : gy.c = t.nBackward) (hu : gu.r = t.n) (hst : Stable (stateRows t gy)) (hs : SymmArr sigma)
    (hpos : PosSemi sigma) (h : covArr la lyap t s gy gu sigma = .ok C) :
    (C.toM t.n t.n)ᵀ = C.toM t.n t.n ∧ PosM (C.toM t.n t.n) ∧ ∃ X, stateVar la lyap t s gy gu sigma = .ok X ∧
      (X.toM t.nBackward t.nBackward)ᵀ = X.toM t.nBackward t.nBackward ∧ PosM (X.toM t.nBackward t.nBackward) := by
  obtain ⟨hn, s1, s2, c1, c2, X, hX, hC⟩ := covArr_spec ly hp hr hc hu h
  obtain ⟨-, -, -, -, hL⟩ := stateVar_spec ly hp hr hc hu hn hX
  have hS : (sigma.toM gu.c gu.c)ᵀ = sigma.toM gu.c gu.c := (symmArr_toM s1 s2).mp hs
  have hP : PosM (sigma.toM gu.c gu.c) := (posSemi_iff s1).mp hpos
  have hv := stable_vanish hst
  have tr : ∀ {a b : Type} [Fintype a] [Fintype b] (G : Matrix b a V) (Y : Matrix a a V), Yᵀ = Y →
      (G * Y * Gᵀ)ᵀ = G * Y * Gᵀ := by
    intro a b _ _ G Y hY
    rw [Matrix.transpose_mul, Matrix.transpose_mul, hY, Matrix.transpose_transpose, Matrix.mul_assoc]
  have hXs := lyapunov_symm hv hL (tr _ _ hS)
  have hXp := lyapunov_pos hv hL (posM_congr hP _)
  refine ⟨?_, ?_, X, hX, hXs, hXp⟩
  · rw [hC, Matrix.transpose_add, tr _ _ hXs, tr _ _ hS]
  · rw [hC]; exact posM_add (posM_congr hXp _) (posM_congr hP _)

end order

end Pynare
