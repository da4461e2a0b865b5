import Verif.Model.FilterData
import Verif.Props.Stats
/-!
# C186: what data a filter accepts
-/

namespace Pynare

variable {V : Type} {obs : List String}

/-- **C186, frames.**  Data in a frame are treated as in C66. -/
theorem C186_frame (labels : List String) (a : Arr V) : modelFilterData obs (.frame labels a) = filterData obs labels a := by
  have e : (labels.map some).filterMap id = labels := by simp [List.filterMap_map]
  have e' : (labels.map some).all (isObserved obs) = labels.all fun l => decide (l ∈ obs) := by
    rw [List.all_map]; rfl
  simp only [modelFilterData, preprocessData, filterData, List.map_eq_nil_iff, List.length_map, e', labelIdx, e]

/-- **C186, arrays.**  An array without labels is accepted, as it is, exactly if it has a column for each observed
variable. -/
theorem C186_array (a : Arr V) :
    modelFilterData obs (.array a) = if a.c = obs.length then .ok a else .error .valueError := by
  simp only [modelFilterData, preprocessData, if_true]
  by_cases h : a.c = obs.length <;> simp [h]

/-- **C186, series.**  A series is accepted exactly if the model has one observed variable and the series has its name.  The
data are then one column. -/
theorem C186_series (name : Option String) (n : Nat) (v : Nat → V) :
    (∀ o, obs = [o] → name = some o →
      ∃ out, modelFilterData obs (.series name n v) = .ok out ∧ out.r = n ∧ out.c = 1 ∧ ∀ i, out.e i 0 = v i) ∧
    (∀ o, obs = [o] → name ≠ some o → modelFilterData obs (.series name n v) = .error .nameError) ∧
    (obs.length ≠ 1 → modelFilterData obs (.series name n v) = .error .valueError) := by
  refine ⟨?_, ?_, ?_⟩
  · rintro o rfl rfl
    obtain ⟨out, h1, h2, h3, h4⟩ := filterData_labelled (obs := [o]) (labels := [o]) (data := (⟨n, 1, fun i _ => v i⟩ : Arr V))
      (by simp) rfl (fun _ h => h) rfl
    refine ⟨out, ?_, h2, h3, fun i => ?_⟩
    · rw [← h1, ← C186_frame]
      rfl
    · obtain ⟨j, -, e⟩ := h4 0 o rfl
      exact e i
  · rintro o rfl hne
    cases name with
    | none => rfl
    | some x =>
      have : x ≠ o := fun h => hne (by rw [h])
      simp [modelFilterData, preprocessData, isObserved, this]
  · intro h
    simp [modelFilterData, preprocessData, Ne.symm h]

/-- **C186, arrays of one dimension.**  They are refused, though a model may have one observed variable only. -/
theorem C186_vector (n : Nat) (v : Nat → V) : modelFilterData obs (.vector n v) = .error .indexError := rfl

/-- **C186, columns** (partial: labels may repeat).  A frame with labels is accepted exactly if there are as many labels as
observed variables, and each is one of them. -/
theorem C186_accepted_partial {labels : List String} {a : Arr V} (hl : labels ≠ []) (ha : a.c = labels.length) :
    (∃ out, modelFilterData obs (.frame labels a) = .ok out) ↔ labels.length = obs.length ∧ ∀ l ∈ labels, l ∈ obs := by
  rw [C186_frame]
  constructor
  · rintro ⟨out, h⟩
    unfold filterData at h
    rw [if_neg hl] at h
    split at h
    · cases h
    · rename_i h1
      split at h
      · cases h
      · rename_i h2
        exact ⟨by simpa using h1, by simpa using h2⟩
  · rintro ⟨h1, h2⟩
    obtain ⟨out, h, -⟩ := filterData_labelled hl h1 h2 ha
    exact ⟨out, h⟩

/-- **C186, the names as they should be.**  A frame without repeated labels is
accepted exactly if its labels are the names of the observed variables in some order. -/
theorem C186_each_once {labels : List String} {a : Arr V} (hn : labels.Nodup) (hl : labels ≠ [])
    (ha : a.c = labels.length) : (∃ out, modelFilterData obs (.frame labels a) = .ok out) ↔ labels.Perm obs := by
  rw [C186_accepted_partial hl ha]
  constructor
  · rintro ⟨h1, h2⟩
    exact (List.subperm_of_subset hn h2).perm_of_length_le (by omega)
  · intro h
    exact ⟨h.length_eq, fun l => h.mem_iff.mp⟩

/-- **C186 does not hold** of frames that have two columns for one observed variable and none for another: they are accepted,
and the other column is lost. -/
theorem C186_false : ∃ (obs labels : List String) (data out : Arr Nat), obs.Nodup ∧ data.c = labels.length ∧
    (∃ o ∈ obs, o ∉ labels) ∧ modelFilterData obs (.frame labels data) = .ok out ∧
    (∃ i < data.c, ∀ j < out.c, out.e 0 j ≠ data.e 0 i) := by
  obtain ⟨out, h1, h2⟩ := ok_of_check (x := modelFilterData ["y", "c"] (.frame ["y", "y"] (⟨1, 2, fun _ c => c⟩ : Arr Nat)))
    (p := fun o => decide (o.c = 2 ∧ o.e 0 0 = 0 ∧ o.e 0 1 = 0)) (by decide +kernel)
  obtain ⟨e1, e2, e3⟩ := of_decide_eq_true h2
  refine ⟨_, _, _, out, by decide, rfl, ⟨"c", by decide, by decide⟩, h1, 1, by decide, fun j hj => ?_⟩
  rw [e1] at hj
  interval_cases j
  · rw [e2]; decide
  · rw [e3]; decide

/-! ### the hypotheses are met -/

example : modelFilterData ["y", "c"] (.array (⟨3, 2, fun i j => i + j⟩ : Arr Nat)) = .ok ⟨3, 2, fun i j => i + j⟩ := by
  rw [C186_array]; rfl

example : ∃ out, modelFilterData ["y"] (.series (some "y") 3 (fun i => 2 * i)) = .ok out ∧ out.e 2 0 = 4 := by
  obtain ⟨out, h, -, -, e⟩ := (C186_series (obs := ["y"]) (some "y") 3 (fun i => 2 * i)).1 "y" rfl rfl
  exact ⟨out, h, e 2⟩

example : modelFilterData ["y"] (.series none 3 (fun i => 2 * i)) = .error .nameError :=
  (C186_series (obs := ["y"]) none 3 (fun i => 2 * i)).2.1 "y" rfl (by simp)

example : ["c", "y"].Nodup ∧ ["c", "y"] ≠ [] ∧ (⟨1, 2, fun _ c => c⟩ : Arr Nat).c = ["c", "y"].length ∧
    ["c", "y"].Perm ["y", "c"] := by decide

#print axioms C186_frame
#print axioms C186_array
#print axioms C186_series
#print axioms C186_vector
#print axioms C186_accepted_partial
#print axioms C186_each_once
#print axioms C186_false

end Pynare
