import Verif.Lemmas.Solution
import Verif.Spec.Simul
import Verif.Props.Arr
/-!
# Lemmas about simulations
-/

namespace Pynare

variable {V : Type}

theorem scatter_foldl (v : Nat → V) : ∀ (ps : List (Nat × Nat)) (row : Nat → V) (c : Nat),
    (∀ p ∈ ps, p.1 ≠ c) →
    ps.foldl (fun row p => fun c => if c = p.1 then v p.2 else row c) row c = row c
  | [], _, _, _ => rfl
  | p :: ps, row, c, h => by
    rw [List.foldl_cons, scatter_foldl v ps _ c fun q hq => h q (List.mem_cons_of_mem _ hq)]
    rw [if_neg (fun e => h p (List.mem_cons_self ..) e.symm)]

theorem scatter_zip (v : Nat → V) : ∀ (order : List Nat) (k : Nat) (row : Nat → V), order.Nodup →
    ∀ (i c : Nat), order[i]? = some c →
    (order.zipIdx k).foldl (fun row p => fun c => if c = p.1 then v p.2 else row c) row c = v (k + i)
  | [], _, _, _, i, c, h => by simp at h
  | x :: xs, k, row, hn, i, c, h => by
    rw [List.zipIdx_cons, List.foldl_cons]
    rw [List.nodup_cons] at hn
    cases i with
    | zero =>
      have hx : x = c := by simpa using h
      subst hx
      rw [scatter_foldl]
      · simp
      · intro p hp e
        have := List.fst_mem_of_mem_zipIdx hp
        rw [e] at this
        exact hn.1 this
    | succ i =>
      rw [scatter_zip v xs (k + 1) _ hn.2 i c (by simpa using h)]
      congr 1
      omega

theorem scatter_get {order : List Nat} (hn : order.Nodup) (v row : Nat → V) {i c : Nat}
    (h : order[i]? = some c) : scatter order v row c = v i := by
  unfold scatter
  rw [scatter_zip v order 0 row hn i c h, Nat.zero_add]

theorem scatter_not_mem {order : List Nat} (v row : Nat → V) {c : Nat} (h : c ∉ order) :
    scatter order v row c = row c := by
  unfold scatter
  apply scatter_foldl
  intro p hp e
  have := List.fst_mem_of_mem_zipIdx hp
  rw [e] at this
  exact h this

/-- two updates of equal values give equal rows -/
theorem scatter_congr (order : List Nat) (v v' row : Nat → V) (h : ∀ i, i < order.length → v i = v' i) :
    scatter order v row = scatter order v' row := by
  unfold scatter
  have : ∀ (ps : List (Nat × Nat)) (r : Nat → V), (∀ p ∈ ps, v p.2 = v' p.2) →
      ps.foldl (fun row p => fun c => if c = p.1 then v p.2 else row c) r =
      ps.foldl (fun row p => fun c => if c = p.1 then v' p.2 else row c) r := by
    intro ps
    induction ps with
    | nil => intros; rfl
    | cons p ps ih =>
      intro r hp
      rw [List.foldl_cons, List.foldl_cons, hp p (List.mem_cons_self ..)]
      exact ih _ fun q hq => hp q (List.mem_cons_of_mem _ hq)
  exact this _ _ fun p hp => h _ (by
    have := List.snd_lt_of_mem_zipIdx hp
    simpa using this)

/-- a linear combination of values gives the linear combination of the rows -/
theorem scatter_linear [CommRing V] (order : List Nat) (v v1 v2 r r1 r2 : Nat → V) (a b : V)
    (hv : ∀ i, i < order.length → v i = a * v1 i + b * v2 i) (hr : ∀ c, r c = a * r1 c + b * r2 c) (c : Nat) :
    scatter order v r c = a * scatter order v1 r1 c + b * scatter order v2 r2 c := by
  unfold scatter
  have : ∀ (ps : List (Nat × Nat)) (r r1 r2 : Nat → V), (∀ p ∈ ps, v p.2 = a * v1 p.2 + b * v2 p.2) →
      (∀ c, r c = a * r1 c + b * r2 c) → ∀ c,
      ps.foldl (fun row p => fun c => if c = p.1 then v p.2 else row c) r c =
      a * ps.foldl (fun row p => fun c => if c = p.1 then v1 p.2 else row c) r1 c +
      b * ps.foldl (fun row p => fun c => if c = p.1 then v2 p.2 else row c) r2 c := by
    intro ps
    induction ps with
    | nil => intro r r1 r2 _ h c; exact h c
    | cons p ps ih =>
      intro r r1 r2 hp h c
      simp only [List.foldl_cons]
      refine ih _ _ _ (fun q hq => hp q (List.mem_cons_of_mem _ hq)) ?_ c
      intro c
      by_cases hc : c = p.1
      · simp only [if_pos hc]; exact hp p (List.mem_cons_self ..)
      · simp only [if_neg hc]; exact h c
  exact this _ _ _ _ (fun p hp => hv _ (by
    have := List.snd_lt_of_mem_zipIdx hp
    simpa using this)) hr c

section
variable [CommRing V]

theorem sumTo_congr {n : Nat} {f g : Nat → V} (h : ∀ i < n, f i = g i) : sumTo n f = sumTo n g := by
  rw [sumTo_eq, sumTo_eq]
  exact Finset.sum_congr rfl fun i hi => h i (Finset.mem_range.mp hi)

theorem sumTo_linear (n : Nat) (f g : Nat → V) (a b : V) :
    (sumTo n fun i => a * f i + b * g i) = a * sumTo n f + b * sumTo n g := by
  rw [sumTo_eq, sumTo_eq, sumTo_eq, Finset.sum_add_distrib, Finset.mul_sum, Finset.mul_sum]

/-- what a successful first-order simulation went through -/
theorem simulateFirst_ok {t : Typer} {gy gu : Arr V} {ys init : List V} {shocks p : Arr V}
    (h : simulateFirst t gy gu ys shocks init = .ok p) :
    ∃ innovs, shocks.dot gu.squeezed.tr = .ok innovs ∧ 0 < shocks.r ∧ init.length = ys.length ∧
      (1 < shocks.r → gy.c = t.drState.length ∧ gy.r = t.drOrder.length ∧ innovs.c = gy.r) ∧
      gu.r * gu.c ≠ 0 ∧ gy.r * gy.c ≠ 0 ∧
      p = ⟨shocks.r, ys.length, fun k c =>
        devFirst t gy innovs.e (fun c => init[c]?.getD 0 - ys[c]?.getD 0) k c + ys[c]?.getD 0⟩ := by
  unfold simulateFirst at h
  by_cases h0 : shocks.r = 0
  · rw [if_pos h0] at h; cases h
  rw [if_neg h0] at h
  by_cases h1 : init.length ≠ ys.length
  · rw [if_pos h1] at h; cases h
  rw [if_neg h1] at h
  obtain ⟨innovs, hi, h⟩ := Except.bind_eq_ok h
  by_cases h2 : gu.r * gu.c = 0
  · rw [if_pos h2] at h; cases h
  rw [if_neg h2] at h
  by_cases h3 : gy.r * gy.c = 0
  · rw [if_pos h3] at h; cases h
  rw [if_neg h3] at h
  by_cases h4 : shocks.r > 1 ∧ ¬ (gy.c = t.drState.length ∧ gy.r = t.drOrder.length ∧ innovs.c = gy.r)
  · rw [if_pos h4] at h; cases h
  rw [if_neg h4] at h
  refine ⟨innovs, hi, by omega, by omega, ?_, h2, h3, (Except.ok.inj h).symm⟩
  intro h5
  by_contra h6
  exact h4 ⟨h5, h6⟩

/-- when a first-order simulation succeeds -/
theorem simulateFirst_succeeds {t : Typer} {gy gu : Arr V} {ys init : List V} {shocks innovs : Arr V}
    (h0 : 0 < shocks.r) (h1 : init.length = ys.length) (hi : shocks.dot gu.squeezed.tr = .ok innovs)
    (h2 : gu.r * gu.c ≠ 0) (h3 : gy.r * gy.c ≠ 0)
    (h4 : 1 < shocks.r → gy.c = t.drState.length ∧ gy.r = t.drOrder.length ∧ innovs.c = gy.r) :
    simulateFirst t gy gu ys shocks init = .ok ⟨shocks.r, ys.length, fun k c =>
        devFirst t gy innovs.e (fun c => init[c]?.getD 0 - ys[c]?.getD 0) k c + ys[c]?.getD 0⟩ := by
  unfold simulateFirst
  rw [if_neg (by omega), if_neg (by omega), hi]
  show (if gu.r * gu.c = 0 then _ else _) = _
  rw [if_neg h2, if_neg h3, if_neg]
  rintro ⟨h5, h6⟩
  exact h6 (h4 h5)

theorem dot_entry {a b c : Arr V} (h : a.dot b = .ok c) :
    a.c = b.r ∧ c.r = a.r ∧ c.c = b.c ∧ ∀ i j, c.e i j = sumTo a.c fun k => a.e i k * b.e k j := by
  unfold Arr.dot at h
  split at h
  case isFalse => cases h
  rename_i h1
  rw [← Except.ok.inj h]
  exact ⟨h1, rfl, rfl, fun _ _ => rfl⟩

/-- rows of the innovations -/
theorem innov_row {gu shocks innovs : Arr V} (h : shocks.dot gu.squeezed.tr = .ok innovs)
    (hs : gu.r ≠ 1 ∨ gu.c = 1) :
    shocks.c = gu.c ∧ innovs.c = gu.r ∧ ∀ k < shocks.r, ∀ i < gu.r,
      innovs.e k i = sumTo shocks.c fun j => gu.e i j * shocks.e k j := by
  obtain ⟨d1, d2, d3, d4⟩ := dot_entry h
  have hsq : gu.squeezed.r = gu.r ∧ gu.squeezed.c = gu.c ∧ ∀ i < gu.r, ∀ j < gu.c,
      gu.squeezed.e i j = gu.e i j := by
    unfold Arr.squeezed
    by_cases h1 : gu.r = 1
    · have h2 : gu.c = 1 := hs.resolve_left (fun h => h h1)
      rw [if_pos h1]
      refine ⟨by simp [Arr.tr, h1, h2], by simp [Arr.tr, h1, h2], ?_⟩
      intro i hi j hj
      have hi0 : i = 0 := by omega
      have hj0 : j = 0 := by omega
      subst hi0 hj0
      rfl
    · rw [if_neg h1]; exact ⟨rfl, rfl, fun _ _ _ _ => rfl⟩
  simp only [Arr.tr] at d1 d3
  refine ⟨by omega, by omega, ?_⟩
  intro k hk i hi
  rw [d4, sumTo_eq, sumTo_eq]
  refine Finset.sum_congr rfl fun j hj => ?_
  have hj' : j < gu.c := by have := Finset.mem_range.mp hj; omega
  show shocks.e k j * gu.squeezed.e i j = _
  rw [hsq.2.2 i hi j hj', mul_comm]

theorem drState_length {t : Typer} (hp : t.drOrder.Perm (List.range t.n)) :
    t.drState.length = t.nBackward ∧ t.drOrder.length = t.n ∧ t.drOrder.Nodup := by
  have hg := (C30_permutation_iff_partial t).mp hp
  obtain ⟨-, -, -, -, -, b6, -⟩ := C69_blocks t hg
  have := (C31_sizes t).2.2.2.1
  refine ⟨?_, by simpa using hp.length_eq, hp.symm.nodup List.nodup_range⟩
  unfold Typer.drState
  rw [List.length_map, b6, List.length_range', this]

theorem stepFirst_follows {t : Typer} (hp : t.drOrder.Perm (List.range t.n)) {nExog : Nat}
    {gy gu : Arr V} {innov prev u : Nat → V} (hc : gy.c = t.drState.length)
    (hi : ∀ i < t.n, innov i = sumTo nExog fun j => gu.e i j * u j) :
    FollowsPolicy t nExog gy gu prev u (stepFirst t gy innov prev) := by
  obtain ⟨h1, h2, h3⟩ := drState_length hp
  intro i c hic
  have hil : i < t.drOrder.length := (List.getElem?_eq_some_iff.mp hic).1
  unfold stepFirst
  rw [scatter_get h3 _ _ hic, hi i (by omega), hc, h1]
  congr 1
  refine sumTo_congr fun j hj => ?_
  have hj' : j < (t.permute t.drOrder).state.length := by
    have : t.drState.length = (t.permute t.drOrder).state.length := by simp [Typer.drState]
    omega
  unfold Typer.drState
  rw [List.getElem?_map, List.getElem?_eq_getElem hj']
  rfl

theorem devFirst_linear (t : Typer) (gy : Arr V) (i i1 i2 : Nat → Nat → V) (d d1 d2 : Nat → V) (a b : V)
    (T : Nat) (hi : ∀ k, k + 1 < T → ∀ j, j < t.drOrder.length → i k j = a * i1 k j + b * i2 k j)
    (hd : ∀ c, d c = a * d1 c + b * d2 c) : ∀ k, k < T → ∀ c,
    devFirst t gy i d k c = a * devFirst t gy i1 d1 k c + b * devFirst t gy i2 d2 k c
  | 0, _, c => hd c
  | k + 1, hk, c => by
    have ih := devFirst_linear t gy i i1 i2 d d1 d2 a b T hi hd k (by omega)
    have hz : ∀ c : Nat, (0 : V) = a * 0 + b * 0 := fun _ => by simp
    rw [devFirst, devFirst, devFirst, stepFirst, stepFirst, stepFirst]
    refine scatter_linear _ _ _ _ (fun _ => 0) (fun _ => 0) (fun _ => 0) a b ?_ hz c
    intro j hj
    rw [hi k hk j hj]
    have : (sumTo gy.c fun l => gy.e j l * devFirst t gy i d k (t.drState[l]?.getD 0)) =
        a * (sumTo gy.c fun l => gy.e j l * devFirst t gy i1 d1 k (t.drState[l]?.getD 0)) +
        b * (sumTo gy.c fun l => gy.e j l * devFirst t gy i2 d2 k (t.drState[l]?.getD 0)) := by
      rw [← sumTo_linear]
      refine sumTo_congr fun l _ => ?_
      rw [ih]; ring
    rw [this]; ring

theorem devFirst_causal (t : Typer) (gy : Arr V) (i1 i2 : Nat → Nat → V) (d : Nat → V) (τ : Nat)
    (hi : ∀ k < τ, ∀ j, j < t.drOrder.length → i1 k j = i2 k j) : ∀ k, k ≤ τ →
    devFirst t gy i1 d k = devFirst t gy i2 d k
  | 0, _ => rfl
  | k + 1, hk => by
    have ih := devFirst_causal t gy i1 i2 d τ hi k (by omega)
    unfold devFirst stepFirst
    rw [ih]
    refine scatter_congr _ _ _ _ fun j hj => ?_
    rw [hi k (by omega) j hj]

end

end Pynare
