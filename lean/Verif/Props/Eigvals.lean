import Verif.Spec.Eigvals
import Verif.Lemmas.Build
import Mathlib.Data.List.Sort
import Mathlib.Data.List.Range
/-!
# Sorted eigenvalues
-/

namespace Pynare

variable {V M : Type}

theorem filterMap_range (xs : List V) : (List.range xs.length).filterMap (fun i => xs[i]?) = xs := by
  induction xs using List.reverseRecOn with
  | nil => rfl
  | append_singleton xs x ih =>
    rw [List.length_append, List.length_singleton, List.range_succ, List.filterMap_append]
    have h1 : (List.range xs.length).filterMap (fun i => (xs ++ [x])[i]?) = xs := by
      conv_rhs => rw [← ih]
      refine List.filterMap_congr fun i hi => ?_
      rw [List.getElem?_append_left (List.mem_range.mp hi)]
    rw [h1]
    simp

/-- the eigenvalues in the order of `argsort` -/
theorem sorted_facts [LE M] {argsort : List M → List Nat} (ha : IsArgsort argsort) (abs : V → M) (eigs : List V) :
    ((argsort (eigs.map abs)).filterMap fun i => eigs[i]?).Perm eigs ∧
    ((argsort (eigs.map abs)).filterMap fun i => eigs[i]?).Pairwise fun u v => abs u ≤ abs v := by
  obtain ⟨h1, h2⟩ := ha (eigs.map abs)
  rw [List.length_map] at h1
  refine ⟨?_, ?_⟩
  · have := h1.filterMap fun i => eigs[i]?
    rwa [filterMap_range] at this
  · rw [List.pairwise_filterMap]
    refine h2.imp fun {i j} h u hu v hv => h _ _ ?_ ?_
    · simp [hu]
    · simp [hv]

/-! ### C173 -/

section c173
variable [LE M] {eig : Arr V → Except Err (List V)} {abs : V → M} {argsort : List M → List Nat}

omit [LE M] in
/-- **C173**, errors: `ValueError` for any other order, before anything is computed; otherwise it raises exactly what
`np.linalg.eigvals` raises. -/
theorem C173_raises (A : Arr V) (order : String) (k : Option Int) (e : Err) :
    eigvalsSorted eig abs argsort A order k = .error e ↔
      (order ≠ "descending" ∧ order ≠ "ascending" ∧ e = .valueError) ∨
      ((order = "descending" ∨ order = "ascending") ∧ eig A = .error e) := by
  unfold eigvalsSorted
  by_cases h : order ≠ "descending" ∧ order ≠ "ascending"
  · rw [if_pos h]
    constructor
    · intro he; exact .inl ⟨h.1, h.2, (Except.error.inj he).symm⟩
    · rintro (⟨_, _, rfl⟩ | ⟨h' | h', _⟩)
      · rfl
      · exact absurd h' h.1
      · exact absurd h' h.2
  · rw [if_neg h]
    have h' : order = "descending" ∨ order = "ascending" := by
      by_cases h1 : order = "descending"
      · exact .inl h1
      · by_cases h2 : order = "ascending"
        · exact .inr h2
        · exact absurd ⟨h1, h2⟩ h
    cases heig : eig A with
    | error x =>
      simp only [exc_bind]
      constructor
      · intro he; exact .inr ⟨h', he⟩
      · rintro (⟨h1, h2, _⟩ | ⟨_, he⟩)
        · exact absurd ⟨h1, h2⟩ h
        · exact he
    | ok x =>
      simp only [exc_bind]
      constructor
      · intro he; cases he
      · rintro (⟨h1, h2, _⟩ | ⟨_, he⟩)
        · exact absurd ⟨h1, h2⟩ h
        · cases he

/-- **C173**, all: the eigenvalues, each as often as `np.linalg.eigvals` returns it, no magnitude after a larger one
(ascending) or a smaller one (descending). -/
theorem C173_all (ha : IsArgsort argsort) {A : Arr V} {eigs res : List V} {order : String} (he : eig A = .ok eigs)
    (h : eigvalsSorted eig abs argsort A order none = .ok res) :
    res.Perm eigs ∧ (order = "descending" → res.Pairwise fun u v => abs v ≤ abs u) ∧
    (order = "ascending" → res.Pairwise fun u v => abs u ≤ abs v) := by
  obtain ⟨h1, h2⟩ := sorted_facts ha abs eigs
  unfold eigvalsSorted at h
  split at h
  · cases h
  · simp only [he, exc_bind, pyTake] at h
    have h := (Except.ok.inj h).symm
    split at h
    · rename_i ho
      rw [List.filterMap_reverse] at h
      subst h
      exact ⟨(List.reverse_perm _).trans h1, fun _ => List.pairwise_reverse.mpr h2, fun hc => by rw [ho] at hc; simp at hc⟩
    · rename_i ho
      subst h
      exact ⟨h1, fun hc => absurd hc ho, fun _ => h2⟩

/-- **C173**, some: with `k` not negative, `k` eigenvalues (all if there are fewer) are returned, and no eigenvalue left
out is larger (descending) or smaller (ascending) in magnitude than one returned. -/
theorem C173_some (ha : IsArgsort argsort) {A : Arr V} {eigs res : List V} {order : String} (k : Nat)
    (he : eig A = .ok eigs) (h : eigvalsSorted eig abs argsort A order (some (k : Int)) = .ok res) :
    res.length = min k eigs.length ∧ ∃ rest, (res ++ rest).Perm eigs ∧
      (order = "descending" → ∀ u ∈ res, ∀ v ∈ rest, abs v ≤ abs u) ∧
      (order = "ascending" → ∀ u ∈ res, ∀ v ∈ rest, abs u ≤ abs v) := by
  obtain ⟨all, hall, hres⟩ : ∃ all, eigvalsSorted eig abs argsort A order none = .ok all ∧ res = all.take k := by
    unfold eigvalsSorted at h ⊢
    split at h
    · cases h
    · rename_i ho
      rw [if_neg ho]
      simp only [he, exc_bind, pyTake] at h ⊢
      refine ⟨_, rfl, ?_⟩
      have h := (Except.ok.inj h).symm
      rwa [if_pos (Int.natCast_nonneg k), Int.toNat_natCast] at h
  obtain ⟨h1, h2, h3⟩ := C173_all ha he hall
  subst hres
  refine ⟨by rw [List.length_take, h1.length_eq], all.drop k, by rwa [List.take_append_drop], fun ho u hu v hv => ?_,
    fun ho u hu v hv => ?_⟩
  · have := h2 ho
    rw [← List.take_append_drop k all, List.pairwise_append] at this
    exact this.2.2 u hu v hv
  · have := h3 ho
    rw [← List.take_append_drop k all, List.pairwise_append] at this
    exact this.2.2 u hu v hv

omit [LE M] in
/-- **C173**, the two orders: one is the other read backwards. -/
theorem C173_backwards (A : Arr V) {res res' : List V} (h : eigvalsSorted eig abs argsort A "descending" none = .ok res)
    (h' : eigvalsSorted eig abs argsort A "ascending" none = .ok res') : res' = res.reverse := by
  cases he : eig A with
  | error e => simp [eigvalsSorted, he, bind, Except.bind] at h
  | ok eigs =>
    simp [eigvalsSorted, he, bind, Except.bind, pyTake, List.filterMap_reverse] at h h'
    rw [← h, ← h', List.reverse_reverse]

end c173

/-! ### concrete cases -/

/-- positions sorted by insertion -/
def natArgsort (ms : List Nat) : List Nat :=
  (List.range ms.length).insertionSort fun i j => ms[i]?.getD 0 ≤ ms[j]?.getD 0

theorem natArgsort_ok : IsArgsort natArgsort := by
  intro ms
  refine ⟨List.perm_insertionSort _ _, ?_⟩
  have : (natArgsort ms).Pairwise fun i j => ms[i]?.getD 0 ≤ ms[j]?.getD 0 := by
    have : Std.Total (fun i j : Nat => ms[i]?.getD 0 ≤ ms[j]?.getD 0) := ⟨fun i j => Nat.le_total _ _⟩
    have : IsTrans Nat (fun i j : Nat => ms[i]?.getD 0 ≤ ms[j]?.getD 0) := ⟨fun i j k => Nat.le_trans⟩
    exact List.pairwise_insertionSort _ _
  refine this.imp fun {i j} h a b ha hb => ?_
  simpa [ha, hb] using h

/-- hypotheses met: eigenvalues 2, -5, 1, 5 in any arrangement -/
example : IsArgsort natArgsort ∧
    eigvalsSorted (fun _ => .ok [2, -5, 1, (5 : Int)]) Int.natAbs natArgsort ⟨4, 4, fun _ _ => 0⟩ "descending" none =
      .ok [5, -5, 2, 1] ∧
    eigvalsSorted (fun _ => .ok [2, -5, 1, (5 : Int)]) Int.natAbs natArgsort ⟨4, 4, fun _ _ => 0⟩ "ascending" none =
      .ok [1, 2, -5, 5] ∧
    eigvalsSorted (fun _ => .ok [2, -5, 1, (5 : Int)]) Int.natAbs natArgsort ⟨4, 4, fun _ _ => 0⟩ "descending" (some 3) =
      .ok [5, -5, 2] :=
  ⟨natArgsort_ok, rfl, rfl, rfl⟩

/-- **C173 is false** of a negative number of eigenvalues: instead of an error, all but the last ones come back. -/
theorem C173_false : ∃ (eig : Arr Int → Except Err (List Int)) (A : Arr Int) (res : List Int), eig A = .ok [2, -5, 1, 5] ∧
    eigvalsSorted eig Int.natAbs natArgsort A "descending" (some (-1)) = .ok res ∧ res = [5, -5, 2] :=
  ⟨fun _ => .ok [2, -5, 1, 5], ⟨4, 4, fun _ _ => 0⟩, _, rfl, rfl, rfl⟩

#print axioms C173_raises
#print axioms C173_all
#print axioms C173_some
#print axioms C173_backwards
#print axioms C173_false

end Pynare
