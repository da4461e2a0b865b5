import Verif.Lemmas.Nd
import Verif.Lemmas.Solution
/-!
# Lemmas about the second-order solution: indices and arrays
-/

namespace Pynare

variable {V : Type} [CommRing V] [DecidableEq V]

set_option linter.unusedSectionVars false

/-! ### indices -/

theorem filterMap_range' {f : Nat → Option Nat} {g : Nat → Nat} {s k : Nat} :
    ∀ {a m : Nat}, a ≤ s → s + k ≤ a + m → (∀ j, a ≤ j → j < a + m → s ≤ j → j < s + k → f j = some (g j)) →
    (∀ j, a ≤ j → j < a + m → (j < s ∨ s + k ≤ j) → f j = none) →
    (List.range' a m).filterMap f = (List.range' s k).map g := by
  intro a m has hk h1 h2
  have e1 : List.range' a m = List.range' a (s - a) ++ (List.range' s k ++ List.range' (s + k) (a + m - (s + k))) := by
    rw [List.range'_append_1]
    have : List.range' (a + (s - a)) (k + (a + m - (s + k))) = List.range' s (k + (a + m - (s + k))) := by
      rw [Nat.add_sub_cancel' has]
    rw [← this, List.range'_append_1]
    congr 1
    omega
  rw [e1, List.filterMap_append, List.filterMap_append]
  have n1 : (List.range' a (s - a)).filterMap f = [] := by
    rw [List.filterMap_eq_nil_iff]
    intro j hj
    rw [List.mem_range'_1] at hj
    exact h2 j hj.1 (by omega) (.inl (by omega))
  have n2 : (List.range' (s + k) (a + m - (s + k))).filterMap f = [] := by
    rw [List.filterMap_eq_nil_iff]
    intro j hj
    rw [List.mem_range'_1] at hj
    exact h2 j (by omega) (by omega) (.inr (by omega))
  have n3 : (List.range' s k).filterMap f = (List.range' s k).map g := by
    rw [← List.filterMap_eq_map]
    refine List.filterMap_congr ?_
    intro j hj
    rw [List.mem_range'_1] at hj
    exact h1 j (by omega) (by omega) hj.1 hj.2
  rw [n1, n2, n3, List.nil_append, List.append_nil]

section idx
variable {t : Typer} (g : Groups t)
include g

theorem drMask_one : t.drMask 1 = List.range' 0 t.n := by
  unfold Typer.drMask Typer.sel
  rw [g.n, List.range_eq_range', List.filter_eq_self]
  intro j hj
  rw [List.mem_range'_1] at hj
  exact g.cur j (by omega)

theorem drMask_two : t.drMask 2 = List.range' (t.static.length + t.pureBackward.length)
    (t.mixed.length + t.pureForward.length) := g.forward

theorem drCols_zero : t.drCols 0 = (List.range' t.static.length (t.pureBackward.length + t.mixed.length)).map
    (t.col 0) := by
  have gt := g.total
  unfold Typer.drCols Typer.timed
  rw [g.n, List.range_eq_range']
  refine filterMap_range' (by omega) (by omega) ?_ ?_
  · intro j _ _ h1 h2
    obtain ⟨k, rfl⟩ := Nat.exists_eq_add_of_le h1
    exact cell_some (g.lag k (by omega))
  · intro j _ h1 h2
    exact lag_none g (by omega) h2

theorem drCols_one : t.drCols 1 = (List.range' 0 t.n).map (t.col 1) := by
  unfold Typer.drCols Typer.timed
  rw [g.n, List.range_eq_range']
  refine filterMap_range' (by omega) (by omega) ?_ ?_
  · intro j _ _ h1 h2
    exact cell_some (g.cur j (by omega))
  · intro j _ h1 h2
    omega

theorem drCols_two : t.drCols 2 = (List.range' (t.static.length + t.pureBackward.length)
    (t.mixed.length + t.pureForward.length)).map (t.col 2) := by
  have gt := g.total
  unfold Typer.drCols Typer.timed
  rw [g.n, List.range_eq_range']
  refine filterMap_range' (by omega) (by omega) ?_ ?_
  · intro j _ _ h1 h2
    obtain ⟨k, rfl⟩ := Nat.exists_eq_add_of_le h1
    exact cell_some (g.lead k (by omega))
  · intro j _ h1 h2
    exact lead_none g (by omega) (by omega)

/-- the column of the jacobian at each position of the reordered hessian -/
def drPos (t : Typer) (p : Nat) : Nat :=
  if p < t.pureBackward.length + t.mixed.length then t.col 0 (t.static.length + p)
  else if p < t.pureBackward.length + t.mixed.length + t.n then
    t.col 1 (p - (t.pureBackward.length + t.mixed.length))
  else if p < t.pureBackward.length + t.mixed.length + t.n + (t.mixed.length + t.pureForward.length) then
    t.col 2 (t.static.length + t.pureBackward.length + (p - (t.pureBackward.length + t.mixed.length + t.n)))
  else p

theorem drAll_length (nExog : Nat) : (t.drAll nExog).length =
    t.pureBackward.length + t.mixed.length + t.n + (t.mixed.length + t.pureForward.length) + nExog := by
  unfold Typer.drAll
  simp only [drCols_zero g, drCols_one g, drCols_two g, List.length_append, List.length_map, List.length_range',
    List.length_range]

theorem drAll_get (nExog p : Nat) (hp : p < (t.drAll nExog).length) :
    (t.drAll nExog)[p]?.getD 0 = drPos t p := by
  rw [drAll_length g] at hp
  unfold Typer.drAll drPos
  simp only [drCols_zero g, drCols_one g, drCols_two g]
  simp only [List.getElem?_append, List.length_append, List.length_map, List.length_range']
  split
  · split
    · split
      · rename_i h; simp [h]
      · rename_i h1 h2 h3
        simp only [List.getElem?_map]
        rw [List.getElem?_range' (by omega)]
        simp
    · rename_i h1 h2
      rw [if_neg (by omega)]
      simp only [List.getElem?_map]
      rw [List.getElem?_range' (by omega)]
      simp
  · rename_i h1
    rw [if_neg (by omega), if_neg (by omega)]
    simp only [List.getElem?_map]
    rw [List.getElem?_range (by omega)]
    simp
    omega

end idx

theorem squareCols_ok {nz : Nat} {cs xs : List Nat} (h : squareCols nz cs = .ok xs) :
    xs.length = cs.length * cs.length ∧ (∀ c ∈ cs, c < nz) ∧
    ∀ p q, p < cs.length → q < cs.length →
      xs[p * cs.length + q]?.getD 0 = cs[p]?.getD 0 * nz + cs[q]?.getD 0 := by
  unfold squareCols at h
  split at h
  · rename_i hall
    have := Except.ok.inj h
    subst this
    refine ⟨?_, fun c hc => of_decide_eq_true (List.all_eq_true.mp hall c hc), ?_⟩
    · rw [List.length_flatMap]
      simp
    · have key : ∀ (ds : List Nat) (p q : Nat), p < ds.length → q < cs.length →
          (ds.flatMap fun p => cs.map fun q => p * nz + q)[p * cs.length + q]?.getD 0 =
            ds[p]?.getD 0 * nz + cs[q]?.getD 0 := by
        intro ds
        induction ds with
        | nil => intro p q hp; simp at hp
        | cons d ds ih =>
          intro p q hp hq
          rw [List.flatMap_cons, List.getElem?_append, List.length_map]
          cases p with
          | zero =>
            rw [Nat.zero_mul, Nat.zero_add, if_pos hq]
            simp [hq]
          | succ p =>
            rw [if_neg (by rw [Nat.succ_mul]; omega), Nat.succ_mul,
              show p * cs.length + cs.length + q - cs.length = p * cs.length + q by omega,
              ih p q (by simpa using hp) hq]
            simp
      exact key cs
  · cases h

/-! ### shapes -/

theorem Nd.matmulScalar_is {x : Nd V} {r c : Nat} {f : Nat → Nat → V} {a : Arr V} (h : x.Is r c f)
    (ha : a.r ≠ 1) (hx : r ≠ 1 ∨ c ≠ 1) : Nd.matmulScalar (.mat a) x = Nd.matmul (.mat a) x := by
  have h1 : (Nd.mat a).item? = none := by
    simp only [Nd.item?]
    rw [if_neg (fun h => ha h.1)]
  have h2 : x.item? = none := by
    cases x with
    | num x => exact h.elim
    | vec n e =>
      have := h.1
      have := h.2.1
      simp only [Nd.item?]
      rw [if_neg (by omega)]
    | mat b =>
      have h1 := h.1
      have h2 := h.2.2.1
      simp only [Nd.item?]
      rw [if_neg (fun h => by omega)]
  unfold Nd.matmulScalar
  rw [h1, h2]

/-- the rows of the states, when there is more than one -/
theorem Nd.loc_many {x y : Nd V} {r c s k : Nat} {f : Nat → Nat → V} (h : x.Is r c f) (hk : k ≠ 1)
    (hy : x.loc (List.range' s k) = .ok y) : y.Is k c fun i j => f (s + i) j := by
  have e : x.loc (List.range' s k) = x.rows (List.range' s k) := by
    rcases k with _ | _ | k
    · rfl
    · omega
    · rfl
  rw [e] at hy
  have := h.rows hy
  rw [List.length_range'] at this
  refine this.congr fun i hi j _ => ?_
  rw [List.getElem?_range' hi]
  simp

/-- the row of the only state -/
theorem Nd.loc_one {x y : Nd V} {r c s : Nat} {f : Nat → Nat → V} (h : x.Is r c f)
    (hy : x.loc (List.range' s 1) = .ok y) :
    (c = 1 → y = .num (f s 0)) ∧ (c ≠ 1 → ∃ e, y = .vec c e ∧ ∀ j < c, e j = f s j) := by
  have e : x.loc (List.range' s 1) = x.row s := rfl
  rw [e] at hy
  cases x with
  | num x => exact h.elim
  | vec n e =>
    obtain ⟨h1, h2, h3⟩ := h
    simp only [Nd.row] at hy
    split at hy
    · rename_i hs
      refine ⟨fun _ => ?_, fun hc => absurd h1 hc⟩
      rw [← Except.ok.inj hy, h3 s (by omega)]
    · cases hy
  | mat a =>
    obtain ⟨h1, h2, h3, h4⟩ := h
    simp only [Nd.row] at hy
    split at hy
    · rename_i hs
      refine ⟨fun hc => absurd hc h1, fun _ => ⟨a.e s, ?_, ?_⟩⟩
      · rw [← Except.ok.inj hy, h3]
      · intro j hj
        exact h4 s (by omega) j hj
    · cases hy

/-- the square block of the states as a two-dimensional array -/
theorem Nd.loc_square {x y : Nd V} {r s k : Nat} {f : Nat → Nat → V} (h : x.Is r k f)
    (hy : x.loc (List.range' s k) = .ok y) :
    y.to2.r = k ∧ y.to2.c = k ∧ ∀ i < k, ∀ j < k, y.to2.e i j = f (s + i) j := by
  by_cases hk : k = 1
  · subst hk
    rw [(Nd.loc_one h hy).1 rfl]
    refine ⟨rfl, rfl, fun i hi j hj => ?_⟩
    have e1 : i = 0 := by omega
    have e2 : j = 0 := by omega
    subst e1 e2
    rfl
  · exact (Nd.loc_many h hk hy).to2

/-- the rows of the states as used in Kronecker products; one shock and several states give a row -/
theorem rowOriented_spec {x y : Nd V} {r s k c : Nat} {f : Nat → Nat → V} (h : x.Is r c f)
    (hy : x.loc (List.range' s k) = .ok y) :
    ((k = 1 ∨ c ≠ 1) → (rowOriented y).r = k ∧ (rowOriented y).c = c ∧
      ∀ i < k, ∀ j < c, (rowOriented y).e i j = f (s + i) j) ∧
    (k ≠ 1 → c = 1 → (rowOriented y).r = 1 ∧ (rowOriented y).c = k) := by
  by_cases hk : k = 1
  · subst hk
    refine ⟨fun _ => ?_, fun hk => absurd rfl hk⟩
    obtain ⟨h1, h2⟩ := Nd.loc_one h hy
    by_cases hc : c = 1
    · rw [h1 hc, hc]
      refine ⟨rfl, rfl, fun i hi j hj => ?_⟩
      have e1 : i = 0 := by omega
      have e2 : j = 0 := by omega
      subst e1 e2
      rfl
    · obtain ⟨e, rfl, he⟩ := h2 hc
      refine ⟨rfl, rfl, fun i hi j hj => ?_⟩
      have e1 : i = 0 := by omega
      subst e1
      exact he j hj
  · have hm := Nd.loc_many h hk hy
    obtain ⟨m1, m2, m3⟩ := hm.to2
    unfold rowOriented
    constructor
    · rintro (h0 | hc)
      · exact absurd h0 hk
      · rw [if_neg (by omega)]
        exact ⟨m1, m2, m3⟩
    · intro _ hc
      rw [if_pos (by omega)]
      exact ⟨by show y.to2.c = 1; omega, m1⟩

theorem stack4_ok {a b c d z : Nd V} (h : stack4 a b c d = .ok z) :
    a.to2.c = b.to2.c ∧ a.to2.c = c.to2.c ∧ a.to2.c = d.to2.c ∧
    (a.to2.r + b.to2.r + c.to2.r + d.to2.r ≠ 1 →
      z.Is (a.to2.r + b.to2.r + c.to2.r + d.to2.r) a.to2.c fun i j =>
        if i < a.to2.r then a.to2.e i j
        else if i < a.to2.r + b.to2.r then b.to2.e (i - a.to2.r) j
        else if i < a.to2.r + b.to2.r + c.to2.r then c.to2.e (i - (a.to2.r + b.to2.r)) j
        else d.to2.e (i - (a.to2.r + b.to2.r + c.to2.r)) j) := by
  unfold stack4 at h
  obtain ⟨x, hx, h⟩ := Except.bind_eq_ok h
  obtain ⟨y, hy, h⟩ := Except.bind_eq_ok h
  obtain ⟨w, hw, h⟩ := Except.bind_eq_ok h
  obtain ⟨x1, x2, x3, x4, x5⟩ := Arr.vstack_ok hx
  obtain ⟨y1, y2, y3, y4, y5⟩ := Arr.vstack_ok hy
  obtain ⟨w1, w2, w3, w4, w5⟩ := Arr.vstack_ok hw
  refine ⟨x1, by omega, by omega, fun hne => ?_⟩
  rw [← Except.ok.inj h]
  have := Nd.squeeze_is (a := w) (by omega)
  rw [show w.r = a.to2.r + b.to2.r + c.to2.r + d.to2.r by omega, show w.c = a.to2.c by omega] at this
  refine this.congr fun i hi j hj => ?_
  by_cases h3 : i < a.to2.r + b.to2.r + c.to2.r
  · rw [if_pos h3, w4 i j (by omega)]
    by_cases h2 : i < a.to2.r + b.to2.r
    · rw [if_pos h2, y4 i j (by omega)]
      by_cases h1 : i < a.to2.r
      · rw [if_pos h1, x4 i j h1]
      · rw [if_neg h1, ← x5]
        congr 1
        omega
    · rw [if_neg (by omega), if_neg h2, ← y5]
      congr 1
      omega
  · rw [if_neg (by omega), if_neg (by omega), if_neg h3, ← w5]
    congr 1
    omega

end Pynare
