import Verif.Model.Py
/-! Helper lemmas about dictionaries. -/

namespace Pynare
namespace Dict

variable {α β : Type}

theorem get?_set (d : Dict α) (k k' : String) (v : α) :
    (d.set k v).get? k' = if k = k' then some v else d.get? k' := by
  induction d with
  | nil => simp [set, get?]
  | cons p d ih =>
    obtain ⟨q, w⟩ := p
    by_cases hq : q = k
    · subst hq
      by_cases h : q = k' <;> simp [set, get?, h]
    · simp only [set, hq, if_false, get?]
      by_cases h : q = k'
      · subst h
        simp [Ne.symm hq]
      · simp [h, ih]

theorem get?_set_self (d : Dict α) (k : String) (v : α) : (d.set k v).get? k = some v := by
  simp [get?_set]

theorem get?_set_ne (d : Dict α) {k k' : String} (h : k ≠ k') (v : α) :
    (d.set k v).get? k' = d.get? k' := by
  simp [get?_set, h]

theorem get?_isSome_iff (d : Dict α) (k : String) : (d.get? k).isSome ↔ k ∈ d.keys := by
  induction d with
  | nil => simp [get?, keys]
  | cons p d ih =>
    obtain ⟨q, w⟩ := p
    by_cases hq : q = k
    · simp [get?, hq, keys]
    · simp only [get?, hq, if_false, ih, keys, List.map_cons, List.mem_cons]
      constructor
      · exact Or.inr
      · rintro (h | h)
        · exact absurd h.symm hq
        · exact h

theorem get?_eq_none_iff (d : Dict α) (k : String) : d.get? k = none ↔ k ∉ d.keys := by
  rw [← get?_isSome_iff]; cases d.get? k <;> simp

theorem exists_get?_of_mem {d : Dict α} {k : String} (h : k ∈ d.keys) : ∃ v, d.get? k = some v := by
  rw [← get?_isSome_iff] at h
  exact Option.isSome_iff_exists.mp h

theorem mem_keys_of_get? {d : Dict α} {k : String} {v : α} (h : d.get? k = some v) :
    k ∈ d.keys := by
  rw [← get?_isSome_iff, h]; rfl

theorem mem_of_get? {d : Dict α} {k : String} {v : α} (h : d.get? k = some v) : (k, v) ∈ d := by
  induction d with
  | nil => simp [get?] at h
  | cons p d ih =>
    obtain ⟨q, w⟩ := p
    by_cases hq : q = k
    · simp [get?, hq] at h; subst h; subst hq; simp
    · simp only [get?, hq, if_false] at h
      exact List.mem_cons_of_mem _ (ih h)

theorem get?_of_mem {d : Dict α} (hn : d.keys.Nodup) {k : String} {v : α} (h : (k, v) ∈ d) :
    d.get? k = some v := by
  induction d with
  | nil => simp at h
  | cons p d ih =>
    obtain ⟨q, w⟩ := p
    simp only [keys, List.map_cons, List.nodup_cons] at hn
    rcases List.mem_cons.mp h with h | h
    · cases h; simp [get?]
    · have hq : q ≠ k := by
        intro e; subst e
        exact hn.1 (List.mem_map.mpr ⟨_, h, rfl⟩)
      simp only [get?, hq, if_false]
      exact ih hn.2 h

theorem keys_set_of_mem {d : Dict α} {k : String} (h : k ∈ d.keys) (v : α) :
    (d.set k v).keys = d.keys := by
  induction d with
  | nil => simp [keys] at h
  | cons p d ih =>
    obtain ⟨q, w⟩ := p
    by_cases hq : q = k
    · simp [set, hq, keys]
    · simp only [set, hq, if_false, keys, List.map_cons]
      simp only [keys, List.map_cons, List.mem_cons] at h
      rcases h with h | h
      · exact absurd h.symm hq
      · rw [show List.map Prod.fst (set d k v) = List.map Prod.fst d from ih h]

theorem keys_set_of_not_mem {d : Dict α} {k : String} (h : k ∉ d.keys) (v : α) :
    (d.set k v).keys = d.keys ++ [k] := by
  induction d with
  | nil => simp [keys, set]
  | cons p d ih =>
    obtain ⟨q, w⟩ := p
    simp only [keys, List.map_cons, List.mem_cons, not_or] at h
    have hq : ¬ q = k := fun e => h.1 e.symm
    simp only [set, hq, if_false, keys, List.map_cons, List.cons_append]
    rw [show List.map Prod.fst (set d k v) = List.map Prod.fst d ++ [k] from ih h.2]

theorem nodup_keys_set {d : Dict α} (hn : d.keys.Nodup) (k : String) (v : α) :
    (d.set k v).keys.Nodup := by
  by_cases h : k ∈ d.keys
  · rw [keys_set_of_mem h]; exact hn
  · rw [keys_set_of_not_mem h]
    rw [List.nodup_append]
    refine ⟨hn, by simp, ?_⟩
    intro a ha b hb e
    simp at hb; subst hb; subst e; exact h ha

theorem get?_erase {d : Dict α} (hn : d.keys.Nodup) (k k' : String) :
    (d.erase k).get? k' = if k = k' then none else d.get? k' := by
  induction d with
  | nil => simp [erase, get?]
  | cons p d ih =>
    obtain ⟨q, w⟩ := p
    simp only [keys, List.map_cons, List.nodup_cons] at hn
    by_cases hq : q = k
    · subst hq
      simp only [erase, if_true, get?]
      by_cases h : q = k'
      · subst h; simp only [if_true]
        exact (get?_eq_none_iff _ _).mpr hn.1
      · simp [h]
    · simp only [erase, hq, if_false, get?]
      by_cases h : q = k'
      · subst h; simp [Ne.symm hq]
      · simp [h, ih hn.2]

theorem keys_erase_sublist (d : Dict α) (k : String) : (d.erase k).keys.Sublist d.keys := by
  induction d with
  | nil => simp [erase, keys]
  | cons p d ih =>
    obtain ⟨q, w⟩ := p
    by_cases hq : q = k
    · simp [erase, hq, keys]
    · simp only [erase, hq, if_false, keys, List.map_cons]
      exact List.Sublist.cons_cons _ ih

theorem get?_ext_of_perm {d d' : Dict α} (hn : d.keys.Nodup) (hp : d.Perm d') (k : String) :
    d.get? k = d'.get? k := by
  have hn' : d'.keys.Nodup := (hp.map Prod.fst).nodup_iff.mp hn
  cases h : d.get? k with
  | some v => exact (get?_of_mem hn' (hp.mem_iff.mp (mem_of_get? h))).symm
  | none =>
    cases h' : d'.get? k with
    | none => rfl
    | some v =>
      have := get?_of_mem hn (hp.mem_iff.mpr (mem_of_get? h'))
      rw [h] at this; exact absurd this (by simp)

end Dict
end Pynare
