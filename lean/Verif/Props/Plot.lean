import Verif.Lemmas.Plot
/-!
# Plot grids: C67, C78, C79, C80
-/

namespace Pynare

/-- Every series is drawn on exactly one axes, and no axes is used twice. -/
def DrawsAll (n : Nat) (ds : List Drawn) : Prop :=
  (ds.flatMap Drawn.series).Perm (List.range n) ∧ (ds.map fun d => (d.row, d.col)).Nodup

/-- Every axes drawn on is one of the grid. -/
def WithinGrid (nrows ncols : Nat) (ds : List Drawn) : Prop := ∀ d ∈ ds, d.row < nrows ∧ d.col < ncols

theorem le_ceilSqrt_iff {n k : Nat} (hn : 0 < n) (hk : 0 < k) : k ≤ ceilSqrt n ↔ (k - 1) * (k - 1) < n := by
  constructor
  · intro h
    by_contra hc
    have := ceilSqrt_min (Nat.le_of_not_lt hc)
    omega
  · intro h
    by_contra hc
    have h1 : ceilSqrt n ≤ k - 1 := by omega
    have h2 := Nat.mul_le_mul h1 h1
    have h3 := ceilSqrt_le_sq n
    omega

/-- **C67.**  For every positive number of series the default grid has exactly as many cells as there are
series; the number of columns is the largest divisor whose predecessor is below the square root. -/
theorem C67_cells {n : Nat} (hn : 0 < n) :
    ∃ nrows ncols, gridShape n (.text "rect") = .ok (nrows, ncols) ∧ nrows * ncols = n ∧
      (ncols - 1) * (ncols - 1) < n ∧ ∀ k, k ∣ n → (k - 1) * (k - 1) < n → k ≤ ncols := by
  obtain ⟨d, h1, h2, h3, h4, h5⟩ := factorNearRoot_spec hn
  refine ⟨n / d, d, ?_, Nat.div_mul_cancel h4, (le_ceilSqrt_iff hn h2).1 h3, fun k hk hkn => ?_⟩
  · simp only [gridShape, h1]
    rfl
  · have hk0 : 0 < k := Nat.pos_of_dvd_of_pos hk hn
    exact h5 k ((le_ceilSqrt_iff hn hk0).2 hkn) hk hk0

/-- Twelve series: three rows of four. -/
example : gridShape 12 (.text "rect") = .ok (3, 4) := by decide +kernel

/-- **C67**, without series: no grid. -/
theorem C67_empty : gridShape 0 (.text "rect") = .error .valueError := by decide +kernel

/-- **C67** for square grids: as many rows as columns, room for all series, and no smaller square has. -/
theorem C67_square (n : Nat) :
    ∃ k, gridShape n (.text "square") = .ok (k, k) ∧ n ≤ k * k ∧ ∀ j, n ≤ j * j → k ≤ j := by
  refine ⟨ceilSqrt n, ?_, ceilSqrt_le_sq n, fun j hj => ceilSqrt_min hj⟩
  unfold ceilSqrt
  by_cases h : n.sqrt * n.sqrt = n
  · simp [gridShape, h]
  · simp [gridShape, h]

/-- Seven series: three by three. -/
example : gridShape 7 (.text "square") = .ok (3, 3) := by decide +kernel

/-- **C78** does not hold: eight series are arranged in four rows of two. -/
theorem C78_false : ¬ ∀ n nrows ncols : Nat, gridShape n (.text "rect") = .ok (nrows, ncols) → nrows ≤ ncols := by
  intro h
  have := h 8 4 2 (by decide +kernel)
  omega

/-- **C78**, the exact condition: there are at most as many rows as columns if and only if the square root
rounded up divides the number of series. -/
theorem C78_iff_partial {n nrows ncols : Nat} (hn : 0 < n)
    (h : gridShape n (.text "rect") = .ok (nrows, ncols)) :
    nrows ≤ ncols ↔ ∃ k, k ∣ n ∧ n ≤ k * k ∧ (k - 1) * (k - 1) < n := by
  obtain ⟨r, c, h1, h2, h3, h4⟩ := C67_cells hn
  rw [h] at h1
  have he := Except.ok.inj h1
  obtain ⟨rfl, rfl⟩ : nrows = r ∧ ncols = c := ⟨congrArg Prod.fst he, congrArg Prod.snd he⟩
  constructor
  · intro hrc
    refine ⟨ncols, ⟨nrows, by rw [Nat.mul_comm]; exact h2.symm⟩, ?_, h3⟩
    have := Nat.mul_le_mul_right ncols hrc
    omega
  · rintro ⟨k, hk, hkn, hkm⟩
    have hkc := h4 k hk hkm
    have h5 := Nat.mul_le_mul hkc hkc
    have hc0 : 0 < ncols := by
      rcases Nat.eq_zero_or_pos ncols with h0 | h0
      · subst h0
        omega
      · exact h0
    by_contra hcon
    have h6 : ncols + 1 ≤ nrows := by omega
    have h7 := Nat.mul_le_mul_right ncols h6
    rw [Nat.add_mul] at h7
    omega

/-- Six series: two rows of three. -/
example : gridShape 6 (.text "rect") = .ok (2, 3) ∧ (3 ∣ 6 ∧ 6 ≤ 3 * 3 ∧ (3 - 1) * (3 - 1) < 6) := by
  refine ⟨by decide +kernel, ⟨2, rfl⟩, by decide +kernel, by decide +kernel⟩

theorem arrange_pair (n r c : Nat) : arrangePlot n true (.pair r c) =
    match subplots r c with
    | .error e => .error e
    | .ok .single => .error .attributeError
    | .ok (.vec size) => .ok (plotColumn n size)
    | .ok (.grid r c) => .ok (plotGrid n r c) := by
  have : arrangePlot n true (.pair r c) = (subplots r c >>= fun axes => match axes with
    | .single => .error .attributeError
    | .vec size => .ok (plotColumn n size)
    | .grid r c => .ok (plotGrid n r c)) := rfl
  rw [this]
  rcases subplots r c with e | a
  · rfl
  · cases a <;> rfl

theorem plotColumn_drawsAll {n size : Nat} (h : n ≤ size) : DrawsAll n (plotColumn n size) := by
  constructor
  · rw [plotColumn, Nat.min_eq_right h, List.flatMap_map]
    simp [List.flatMap_singleton']
  · rw [plotColumn, List.map_map]
    exact List.Nodup.map (fun i j hij => congrArg Prod.snd hij) List.nodup_range

theorem plotGrid_drawsAll (n : Nat) {r c : Nat} (hr : 0 < r) (hc : 0 < c) : DrawsAll n (plotGrid n r c) := by
  have hs : 0 < r * c := Nat.mul_pos hr hc
  constructor
  · rw [plotGrid, List.flatMap_map]
    exact grid_series_perm hs
  · rw [plotGrid, List.map_map]
    refine List.Nodup.map_on ?_ List.nodup_range
    intro i hi j hj hij
    rw [List.mem_range] at hi hj
    have hi' : i % (r * c) = i := Nat.mod_eq_of_lt (by omega)
    have hj' : j % (r * c) = j := Nat.mod_eq_of_lt (by omega)
    have h1 : i % (r * c) / c = j % (r * c) / c := congrArg Prod.fst hij
    have h2 : i % (r * c) % c = j % (r * c) % c := congrArg Prod.snd hij
    rw [hi', hj'] at h1 h2
    rw [← Nat.div_add_mod i c, ← Nat.div_add_mod j c, h1, h2]

theorem plotGrid_within (n : Nat) {r c : Nat} (hc : 0 < c) : WithinGrid r c (plotGrid n r c) := by
  intro d hd
  rw [plotGrid, List.mem_map] at hd
  obtain ⟨k, hk, rfl⟩ := hd
  rw [List.mem_range] at hk
  have hm : k % (r * c) < r * c := Nat.mod_lt _ (by omega)
  exact ⟨Nat.div_lt_of_lt_mul (Nat.mul_comm r c ▸ hm), Nat.mod_lt _ hc⟩

/-- **C79**, grids: with at least two rows and two columns every series is drawn exactly once, also when
there are more series than cells. -/
theorem C79_grid_partial (n : Nat) {nrows ncols : Nat} (hr : 2 ≤ nrows) (hc : 2 ≤ ncols) :
    ∃ ds, arrangePlot n true (.pair nrows ncols) = .ok ds ∧ DrawsAll n ds ∧ WithinGrid nrows ncols ds := by
  refine ⟨plotGrid n nrows ncols, ?_, plotGrid_drawsAll n (by omega) (by omega), plotGrid_within n (by omega)⟩
  have h0 : ¬ (nrows = 0 ∨ ncols = 0) := by omega
  have h1 : ¬ (nrows = 1 ∧ ncols = 1) := by omega
  have h2 : ¬ ncols = 1 := by omega
  have h3 : ¬ nrows = 1 := by omega
  have e : subplots nrows ncols = .ok (.grid nrows ncols) := by
    rw [subplots, if_neg h0, if_neg h1, if_neg h2, if_neg h3]
  rw [arrange_pair, e]

/-- Five series on a two-by-two grid: the fifth shares the first axes. -/
example : arrangePlot 5 true (.pair 2 2) =
    .ok [⟨0, 0, [0, 4]⟩, ⟨0, 1, [1]⟩, ⟨1, 0, [2]⟩, ⟨1, 1, [3]⟩] := by decide +kernel

/-- **C79**, one row or one column: every series is drawn if and only if there are enough cells. -/
theorem C79_vector_partial (n : Nat) {nrows ncols : Nat} (h1 : nrows = 1 ∨ ncols = 1) (h2 : 2 ≤ nrows * ncols) :
    ∃ ds, arrangePlot n true (.pair nrows ncols) = .ok ds ∧ (DrawsAll n ds ↔ n ≤ nrows * ncols) := by
  refine ⟨plotColumn n (nrows * ncols), ?_, ?_, plotColumn_drawsAll⟩
  · rcases h1 with rfl | rfl
    · rw [Nat.one_mul] at h2
      have e0 : ¬ (1 = 0 ∨ ncols = 0) := by omega
      have e1 : ¬ (1 = 1 ∧ ncols = 1) := by omega
      have e2 : ¬ ncols = 1 := by omega
      rw [Nat.one_mul]
      have e : subplots 1 ncols = .ok (.vec ncols) := by
        rw [subplots, if_neg e0, if_neg e1, if_neg e2, if_pos rfl]
      rw [arrange_pair, e]
    · rw [Nat.mul_one] at h2
      have e0 : ¬ (nrows = 0 ∨ 1 = 0) := by omega
      have e1 : ¬ (nrows = 1 ∧ 1 = 1) := by omega
      rw [Nat.mul_one]
      have e : subplots nrows 1 = .ok (.vec nrows) := by
        rw [subplots, if_neg e0, if_neg e1, if_pos rfl]
      rw [arrange_pair, e]
  · intro h
    by_contra hn
    have h3 := h.1.length_eq
    rw [plotColumn, List.flatMap_map] at h3
    have h4 : min (nrows * ncols) n = nrows * ncols := Nat.min_eq_left (by omega)
    rw [h4] at h3
    simp [List.flatMap_singleton'] at h3
    omega

/-- Two series in a row of three. -/
example : arrangePlot 2 true (.pair 1 3) = .ok [⟨0, 0, [0]⟩, ⟨0, 1, [1]⟩] := by decide +kernel

theorem vec_draws {n r c : Nat} (h1 : r = 1 ∨ c = 1) (h2 : 2 ≤ r * c) (h3 : n ≤ r * c) :
    ∃ ds, arrangePlot n true (.pair r c) = .ok ds ∧ DrawsAll n ds := by
  obtain ⟨ds, e, hd⟩ := C79_vector_partial n h1 h2
  exact ⟨ds, e, hd.2 h3⟩

theorem pair_draws {n r c : Nat} (h2 : 2 ≤ r * c) (h3 : n ≤ r * c) :
    ∃ ds, arrangePlot n true (.pair r c) = .ok ds ∧ DrawsAll n ds := by
  by_cases h : r = 1 ∨ c = 1
  · exact vec_draws h h2 h3
  · have hr : r ≠ 0 := fun h0 => by rw [h0, Nat.zero_mul] at h2; omega
    have hc : c ≠ 0 := fun h0 => by rw [h0, Nat.mul_zero] at h2; omega
    obtain ⟨ds, e, hd, _⟩ := C79_grid_partial n (nrows := r) (ncols := c) (by omega) (by omega)
    exact ⟨ds, e, hd⟩

theorem arrange_of_shape {n r c : Nat} {l : PlotLayout} (h : gridShape n l = .ok (r, c)) :
    arrangePlot n true l = arrangePlot n true (.pair r c) := by
  have e : ∀ l', arrangePlot n true l' = (gridShape n l' >>= fun p => subplots p.1 p.2 >>= fun axes =>
    match axes with
    | .single => .error .attributeError
    | .vec size => .ok (plotColumn n size)
    | .grid r c => .ok (plotGrid n r c)) := fun _ => rfl
  rw [e l, e (.pair r c), h]
  rfl

/-- **C79, C80**, named layouts: two series or more are each drawn exactly once in the layouts `rect` (the
default), `square` and `column`. -/
theorem C79_named_partial {n : Nat} (hn : 2 ≤ n) {s : String} (hs : s = "rect" ∨ s = "square" ∨ s = "column") :
    ∃ ds, arrangePlot n true (.text s) = .ok ds ∧ DrawsAll n ds := by
  rcases hs with rfl | rfl | rfl
  · obtain ⟨r, c, h1, h2, _⟩ := C67_cells (n := n) (by omega)
    rw [arrange_of_shape h1]
    exact pair_draws (by omega) (by omega)
  · obtain ⟨k, h1, h2, _⟩ := C67_square n
    rw [arrange_of_shape h1]
    exact pair_draws (by omega) h2
  · have h1 : gridShape n (.text "column") = .ok (n, 1) := by simp [gridShape]
    rw [arrange_of_shape h1]
    exact pair_draws (by omega) (by omega)

/-- Three series: one row each. -/
example : arrangePlot 3 true (.text "rect") = .ok [⟨0, 0, [0]⟩, ⟨0, 1, [1]⟩, ⟨0, 2, [2]⟩] := by decide +kernel

/-- **C79**, one axes for all. -/
theorem C79_joint_partial (n : Nat) (l : PlotLayout) :
    ∃ ds, arrangePlot n false l = .ok ds ∧ DrawsAll n ds :=
  ⟨[⟨0, 0, List.range n⟩], rfl, by simp [DrawsAll]⟩

/-- **C79** does not hold: a single series cannot be plotted in any of the named layouts, and a column of
two axes silently leaves out the third series. -/
theorem C79_false :
    (∀ s, s = "rect" ∨ s = "square" ∨ s = "column" →
      arrangePlot 1 true (.text s) = .error .attributeError) ∧
    ∃ ds, arrangePlot 3 true (.pair 2 1) = .ok ds ∧ ∀ d ∈ ds, 2 ∉ d.series := by
  refine ⟨?_, [⟨0, 0, [0]⟩, ⟨0, 1, [1]⟩], by decide +kernel, by decide +kernel⟩
  rintro s (rfl | rfl | rfl) <;> decide +kernel

/-- **C80** does not hold: the layout `row` of the documentation is refused for every number of series. -/
theorem C80_false (n : Nat) : arrangePlot n true (.text "row") = .error .valueError := by
  simp only [arrangePlot, gridShape]
  rfl

#print axioms C67_cells
#print axioms C67_empty
#print axioms C67_square
#print axioms C78_false
#print axioms C78_iff_partial
#print axioms C79_grid_partial
#print axioms C79_vector_partial
#print axioms C79_named_partial
#print axioms C79_joint_partial
#print axioms C79_false
#print axioms C80_false

end Pynare
