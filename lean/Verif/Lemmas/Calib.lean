import Mathlib.Data.Fintype.Card
import Mathlib.Data.Set.Finite.List
import Mathlib.Order.WellFounded
import Verif.Model.Calib
import Verif.Lemmas.Dict
/-! Helper lemmas for the calibration properties. -/

namespace Pynare

theorem precOf_set (d : Dict Nat) (k k' : String) (n : Nat) :
    precOf (d.set k n) k' = if k = k' then n else precOf d k' := by
  unfold precOf
  rw [Dict.get?_set]
  by_cases h : k = k' <;> simp [h]

/-- number of entries without precedence -/
def zeros (d : Dict Nat) : Nat := (d.filter fun p => p.2 == 0).length

theorem zeros_set {d : Dict Nat} {k : String} {n : Nat} (h : d.get? k = some 0) (hn : 0 < n) :
    zeros (d.set k n) + 1 = zeros d := by
  induction d with
  | nil => simp [Dict.get?] at h
  | cons p d ih =>
    obtain ⟨q, w⟩ := p
    by_cases hq : q = k
    · simp [Dict.get?, hq] at h
      subst h
      have : ¬ n = 0 := by omega
      simp [zeros, Dict.set, hq, this]
    · simp only [Dict.get?, hq, if_false] at h
      have := ih h
      simp only [zeros, Dict.set, hq, if_false, List.filter_cons] at *
      by_cases hw : (w == 0) = true
      · simp only [hw, if_true, List.length_cons]; omega
      · simp only [hw]; exact this

theorem zeros_pos_iff {d : Dict Nat} (hn : d.keys.Nodup) :
    0 < zeros d ↔ ∃ k ∈ d.keys, precOf d k = 0 := by
  unfold zeros
  rw [List.length_pos_iff_exists_mem]
  constructor
  · rintro ⟨⟨k, v⟩, h⟩
    rw [List.mem_filter] at h
    have h2 : v = 0 := by simpa using h.2
    refine ⟨k, List.mem_map.mpr ⟨_, h.1, rfl⟩, ?_⟩
    simp [precOf, Dict.get?_of_mem hn h.1, h2]
  · rintro ⟨k, hk, hp⟩
    obtain ⟨v, hv⟩ := Dict.exists_get?_of_mem hk
    refine ⟨(k, v), List.mem_filter.mpr ⟨Dict.mem_of_get? hv, ?_⟩⟩
    simp [precOf, hv] at hp
    simp [hp]

theorem any_zero_iff {d : Dict Nat} (hn : d.keys.Nodup) :
    (d.map Prod.snd).any (fun p => p == 0) = true ↔ ∃ k ∈ d.keys, precOf d k = 0 := by
  rw [← zeros_pos_iff hn]
  unfold zeros
  rw [List.length_pos_iff_exists_mem]
  simp [List.any_eq_true]

theorem initPrec_keys (rhs : Dict (List String)) : (initPrec rhs).keys = rhs.keys := by
  simp [initPrec, Dict.keys, Function.comp_def]

theorem initPrec_get? (rhs : Dict (List String)) (k : String) :
    (initPrec rhs).get? k = (rhs.get? k).map fun r => if r.isEmpty then 1 else 0 := by
  induction rhs with
  | nil => rfl
  | cons p rhs ih =>
    obtain ⟨q, w⟩ := p
    simp only [initPrec, List.map_cons, Dict.get?]
    by_cases h : q = k
    · simp [h]
    · simp only [h, if_false]; exact ih

theorem initPrec_count (rhs : Dict (List String)) :
    (initPrec rhs).length - ((initPrec rhs).map Prod.snd).sum = zeros (initPrec rhs) ∧
    ((initPrec rhs).map Prod.snd).sum ≤ (initPrec rhs).length := by
  induction rhs with
  | nil => simp [initPrec, zeros]
  | cons p rhs ih =>
    obtain ⟨q, w⟩ := p
    obtain ⟨ih1, ih2⟩ := ih
    simp only [initPrec, zeros, List.map_cons, List.length_cons, List.sum_cons,
      List.filter_cons] at *
    by_cases h : w.isEmpty = true
    · simp only [h, if_true]
      constructor
      · simp; simp at ih1; omega
      · simp; simp at ih2; omega
    · simp only [h]
      constructor
      · simp; simp at ih1 ih2; omega
      · simp; simp at ih2; omega

/-- every name mentioned is defined -/
def Closed (rhs : Dict (List String)) : Prop :=
  ∀ k r, (k, r) ∈ rhs → ∀ v ∈ r, v ∈ rhs.keys

theorem lookupAll_ok {prec : Dict Nat} {xs : List String} (h : ∀ x ∈ xs, x ∈ prec.keys) :
    lookupAll prec xs = .ok (xs.map (precOf prec)) := by
  induction xs with
  | nil => rfl
  | cons x xs ih =>
    obtain ⟨v, hv⟩ := Dict.exists_get?_of_mem (h x (by simp))
    have := ih (fun y hy => h y (by simp [hy]))
    simp [lookupAll, hv, this, precOf, bind, Except.bind]

theorem lookupAll_error {prec : Dict Nat} {xs : List String} (h : ∃ x ∈ xs, x ∉ prec.keys) :
    lookupAll prec xs = .error .keyError := by
  induction xs with
  | nil => simp at h
  | cons x xs ih =>
    simp only [lookupAll]
    cases hx : prec.get? x with
    | none => rfl
    | some n =>
      obtain ⟨y, hy, hy'⟩ := h
      rcases List.mem_cons.mp hy with e | hm
      · subst e; exact absurd (Dict.mem_keys_of_get? hx) hy'
      · simp [ih ⟨y, hm, hy'⟩, bind, Except.bind]

theorem le_sum_of_mem' {l : List Nat} {n : Nat} (h : n ∈ l) : n ≤ l.sum := by
  induction l with
  | nil => simp at h
  | cons x l ih =>
    rcases List.mem_cons.mp h with e | hm
    · subst e; simp
    · have := ih hm; simp; omega

/-- loop invariant of `order_precedence` -/
structure Inv (rhs : Dict (List String)) (st : Dict Nat × Nat) : Prop where
  keys : st.1.keys = rhs.keys
  count : st.2 = zeros st.1
  empty : ∀ k, rhs.get? k = some [] → 0 < precOf st.1 k
  order : ∀ k r, rhs.get? k = some r → 0 < precOf st.1 k → ∀ v ∈ r,
    v ∈ rhs.keys ∧ 0 < precOf st.1 v ∧ precOf st.1 v < precOf st.1 k

theorem inv_init (rhs : Dict (List String)) :
    Inv rhs (initPrec rhs, (initPrec rhs).length - ((initPrec rhs).map Prod.snd).sum) := by
  refine ⟨initPrec_keys rhs, (initPrec_count rhs).1, ?_, ?_⟩
  · intro k hk; simp [precOf, initPrec_get?, hk]
  · intro k r hk hp v hv
    cases r with
    | nil => simp at hv
    | cons a r => simp [precOf, initPrec_get?, hk] at hp

theorem stepPrec_spec {rhs : Dict (List String)} {st st' : Dict Nat × Nat} {k : String}
    {r : List String} (hi : Inv rhs st) (hk : rhs.get? k = some r)
    (h : stepPrec st k r = .ok st') :
    Inv rhs st' ∧ (∀ x, 0 < precOf st.1 x → precOf st'.1 x = precOf st.1 x) ∧ st'.2 ≤ st.2 ∧
    (0 < precOf st'.1 k ∨ ∃ v ∈ r, precOf st.1 v = 0) ∧ (∀ v ∈ r, v ∈ rhs.keys ∨ 0 < precOf st.1 k)
    ∧ (precOf st.1 k = 0 → 0 < precOf st'.1 k → st'.2 < st.2) := by
  have hkm : k ∈ st.1.keys := by rw [hi.keys]; exact Dict.mem_keys_of_get? hk
  obtain ⟨p, hp⟩ := Dict.exists_get?_of_mem hkm
  unfold stepPrec at h
  rw [hp] at h
  simp only at h
  by_cases p0 : p = 0
  · subst p0
    simp only [if_true] at h
    have hpk : precOf st.1 k = 0 := by simp [precOf, hp]
    by_cases hc : ∀ x ∈ r, x ∈ st.1.keys
    · rw [lookupAll_ok hc] at h
      simp only [bind, Except.bind] at h
      by_cases ha : (List.map (precOf st.1) r).all (fun n => decide (n > 0)) = true
      · rw [if_pos ha] at h
        injection h with h
        have ha' : ∀ v ∈ r, 0 < precOf st.1 v := by
          intro v hv
          have := List.all_eq_true.mp ha (precOf st.1 v) (List.mem_map.mpr ⟨v, hv, rfl⟩)
          simpa using this
        have hz := zeros_set (n := (List.map (precOf st.1) r).sum + 1) hp (by omega)
        have hv : ∀ x, 0 < precOf st.1 x → precOf st'.1 x = precOf st.1 x := by
          intro x hx
          rw [← h, precOf_set]
          by_cases e : k = x
          · subst e; omega
          · simp [e]
        have hk' : precOf st'.1 k = (List.map (precOf st.1) r).sum + 1 := by
          rw [← h, precOf_set]; simp
        refine ⟨⟨?_, ?_, ?_, ?_⟩, hv, ?_, ?_, ?_, ?_⟩
        · rw [← h]; simp only; rw [Dict.keys_set_of_mem hkm, hi.keys]
        · rw [← h]; simp only; rw [hi.count]; omega
        · intro x hx; rw [hv x (hi.empty x hx)]; exact hi.empty x hx
        · intro x rx hx hpx v hvr
          by_cases e : k = x
          · subst e
            rw [hk] at hx; cases hx
            refine ⟨?_, ?_, ?_⟩
            · rw [← hi.keys]; exact hc v hvr
            · rw [hv v (ha' v hvr)]; exact ha' v hvr
            · rw [hv v (ha' v hvr), hk']
              have := le_sum_of_mem' (List.mem_map.mpr ⟨v, hvr, rfl⟩ :
                precOf st.1 v ∈ List.map (precOf st.1) r)
              omega
          · have hpx' : 0 < precOf st.1 x := by
              rw [← h, precOf_set] at hpx; simpa [e] using hpx
            obtain ⟨h1, h2, h3⟩ := hi.order x rx hx hpx' v hvr
            exact ⟨h1, by rw [hv v h2]; exact h2, by rw [hv v h2, hv x hpx']; exact h3⟩
        · rw [← h]; simp only; omega
        · left; omega
        · intro v hvr; left; rw [← hi.keys]; exact hc v hvr
        · intro _ _
          rw [← h]; simp only
          have := hi.count
          omega
      · rw [if_neg ha] at h
        injection h with h
        subst h
        refine ⟨hi, fun _ _ => rfl, Nat.le_refl _, ?_, ?_, ?_⟩
        · right
          simp only [Bool.not_eq_true, List.all_eq_false] at ha
          obtain ⟨n, hn, hn'⟩ := ha
          obtain ⟨v, hv, rfl⟩ := List.mem_map.mp hn
          exact ⟨v, hv, by simpa using hn'⟩
        · intro v hvr; left; rw [← hi.keys]; exact hc v hvr
        · intro a b; omega
    · have : ∃ x ∈ r, x ∉ st.1.keys := by
        simpa using hc
      rw [lookupAll_error this] at h
      simp [bind, Except.bind] at h
  · simp only [p0, if_false] at h
    injection h with h
    subst h
    have hpk : 0 < precOf st.1 k := by simp [precOf, hp]; omega
    refine ⟨hi, fun _ _ => rfl, Nat.le_refl _, Or.inl hpk, fun _ _ => Or.inr hpk, ?_⟩
    intro a b; omega

theorem passPrec_spec {rhs : Dict (List String)} :
    ∀ {es : Dict (List String)} {st st' : Dict Nat × Nat}, Inv rhs st →
    (∀ k r, (k, r) ∈ es → rhs.get? k = some r) → passPrec st es = .ok st' →
    Inv rhs st' ∧ (∀ x, 0 < precOf st.1 x → precOf st'.1 x = precOf st.1 x) ∧ st'.2 ≤ st.2 ∧
    (∀ k r, (k, r) ∈ es → precOf st.1 k = 0 → (∀ v ∈ r, 0 < precOf st.1 v) → st'.2 < st.2) ∧
    (∀ k r, (k, r) ∈ es → ∀ v ∈ r, v ∈ rhs.keys) := by
  intro es
  induction es with
  | nil =>
    intro st st' hi _ h
    simp [passPrec] at h
    subst h
    exact ⟨hi, fun _ _ => rfl, Nat.le_refl _, by simp, by simp⟩
  | cons p es ih =>
    obtain ⟨k, r⟩ := p
    intro st st' hi hsub h
    simp only [passPrec, bind, Except.bind] at h
    cases hs : stepPrec st k r with
    | error e => rw [hs] at h; simp at h
    | ok st1 =>
      rw [hs] at h
      simp only at h
      have hk := hsub k r (by simp)
      obtain ⟨a1, a2, a3, a4, a5, a6⟩ := stepPrec_spec hi hk hs
      obtain ⟨b1, b2, b3, b4, b5⟩ := ih a1 (fun k' r' hm => hsub k' r' (by simp [hm])) h
      refine ⟨b1, ?_, by omega, ?_, ?_⟩
      · intro x hx
        rw [b2 x (by rw [a2 x hx]; exact hx), a2 x hx]
      · intro k' r' hm h0 hd
        rcases List.mem_cons.mp hm with e | hm'
        · cases e
          rcases a4 with a4 | ⟨v, hv, hv0⟩
          · have := a6 h0 a4; omega
          · have := hd v hv; omega
        · by_cases h1 : precOf st1.1 k' = 0
          · have := b4 k' r' hm' h1 (fun v hv => by rw [a2 v (hd v hv)]; exact hd v hv)
            omega
          · have hkk : k = k' := by
              by_contra hne
              -- the step only changes `k`
              have : precOf st1.1 k' = precOf st.1 k' := by
                unfold stepPrec at hs
                cases hg : st.1.get? k with
                | none => rw [hg] at hs; simp at hs
                | some p =>
                  rw [hg] at hs
                  simp only at hs
                  by_cases p0 : p = 0
                  · simp only [p0, if_true, bind, Except.bind] at hs
                    cases hl : lookupAll st.1 r with
                    | error e => rw [hl] at hs; simp at hs
                    | ok ns =>
                      rw [hl] at hs
                      simp only at hs
                      split at hs
                      · injection hs with hs
                        rw [← hs, precOf_set]; simp [hne]
                      · injection hs with hs; rw [← hs]
                  · simp only [p0, if_false] at hs
                    injection hs with hs; rw [← hs]
              omega
            subst hkk
            have := a6 h0 (by omega)
            omega
      · intro k' r' hm v hv
        rcases List.mem_cons.mp hm with e | hm'
        · cases e
          rcases a5 v hv with h' | h'
          · exact h'
          · exact (hi.order k r hk h' v hv).1
        · exact b5 k' r' hm' v hv

theorem passPrec_ok {rhs : Dict (List String)} (hc : Closed rhs) :
    ∀ {es : Dict (List String)} {st : Dict Nat × Nat}, Inv rhs st →
    (∀ k r, (k, r) ∈ es → rhs.get? k = some r) → ∃ st', passPrec st es = .ok st' := by
  intro es
  induction es with
  | nil => intro st _ _; exact ⟨st, rfl⟩
  | cons p es ih =>
    obtain ⟨k, r⟩ := p
    intro st hi hsub
    have hk := hsub k r (by simp)
    have : ∃ st1, stepPrec st k r = .ok st1 := by
      have hkm : k ∈ st.1.keys := by rw [hi.keys]; exact Dict.mem_keys_of_get? hk
      obtain ⟨p, hp⟩ := Dict.exists_get?_of_mem hkm
      unfold stepPrec
      rw [hp]
      simp only
      split
      · rw [lookupAll_ok (by
          intro x hx; rw [hi.keys]
          exact hc k r (Dict.mem_of_get? hk) x hx)]
        simp only [bind, Except.bind]
        split
        · exact ⟨_, rfl⟩
        · exact ⟨_, rfl⟩
      · exact ⟨_, rfl⟩
    obtain ⟨st1, hs⟩ := this
    obtain ⟨a1, _⟩ := stepPrec_spec hi hk hs
    obtain ⟨st', h'⟩ := ih a1 (fun k' r' hm => hsub k' r' (by simp [hm]))
    exact ⟨st', by simp [passPrec, hs, h', bind, Except.bind]⟩

/-- with an undefined name the first pass raises `KeyError` -/
theorem passPrec_keyError {rhs : Dict (List String)} :
    ∀ {es : Dict (List String)} {st : Dict Nat × Nat}, Inv rhs st →
    (∀ k r, (k, r) ∈ es → rhs.get? k = some r) →
    (∃ k r, (k, r) ∈ es ∧ ∃ v ∈ r, v ∉ rhs.keys) → passPrec st es = .error .keyError := by
  intro es
  induction es with
  | nil => intro st _ _ h; simp at h
  | cons p es ih =>
    obtain ⟨k, r⟩ := p
    intro st hi hsub hex
    have hk := hsub k r (by simp)
    simp only [passPrec, bind, Except.bind]
    cases hs : stepPrec st k r with
    | error e =>
      simp only
      have hkm : k ∈ st.1.keys := by rw [hi.keys]; exact Dict.mem_keys_of_get? hk
      obtain ⟨p, hp⟩ := Dict.exists_get?_of_mem hkm
      unfold stepPrec at hs
      rw [hp] at hs
      simp only at hs
      split at hs
      · by_cases hc : ∀ x ∈ r, x ∈ st.1.keys
        · rw [lookupAll_ok hc] at hs
          simp only [bind, Except.bind] at hs
          split at hs <;> cases hs
        · rw [lookupAll_error (by simpa using hc)] at hs
          simp only [bind, Except.bind] at hs
          cases hs; rfl
      · cases hs
    | ok st1 =>
      simp only
      obtain ⟨a1, a2, a3, a4, a5, a6⟩ := stepPrec_spec hi hk hs
      refine ih a1 (fun k' r' hm => hsub k' r' (by simp [hm])) ?_
      obtain ⟨k', r', hm, v, hv, hv'⟩ := hex
      rcases List.mem_cons.mp hm with e | hm'
      · cases e
        exfalso
        rcases a5 v hv with h' | h'
        · exact hv' h'
        · exact hv' (hi.order k r hk h' v hv).1
      · exact ⟨k', r', hm', v, hv, hv'⟩

theorem loopPrec_spec {rhs : Dict (List String)} (hn : rhs.keys.Nodup) :
    ∀ {n : Nat} {st st' : Dict Nat × Nat}, Inv rhs st → loopPrec rhs n st = .ok st' →
    Inv rhs st' := by
  intro n
  induction n with
  | zero => intro st st' hi h; simp [loopPrec] at h; subst h; exact hi
  | succ n ih =>
    intro st st' hi h
    simp only [loopPrec] at h
    split at h
    · simp only [bind, Except.bind] at h
      cases hp : passPrec st rhs with
      | error e => rw [hp] at h; simp at h
      | ok st1 =>
        rw [hp] at h
        exact ih (passPrec_spec hi (fun k r hm => Dict.get?_of_mem hn hm) hp).1 h
    · injection h with h; subst h; exact hi

/-- the dependency relation: `k`'s definition mentions `v` -/
def Dep (rhs : Dict (List String)) (k v : String) : Prop := ∃ r, (k, r) ∈ rhs ∧ v ∈ r

/-- an unresolved parameter with resolved dependencies exists -/
theorem exists_ready {rhs : Dict (List String)}
    (ha : ∀ k, ¬ Relation.TransGen (Dep rhs) k k) (hc : Closed rhs) {prec : Dict Nat}
    (hex : ∃ k ∈ rhs.keys, precOf prec k = 0) :
    ∃ k r, (k, r) ∈ rhs ∧ precOf prec k = 0 ∧ ∀ v ∈ r, 0 < precOf prec v := by
  let T := {x // x ∈ rhs.keys}
  let R : T → T → Prop := fun a b => Relation.TransGen (Dep rhs) b.1 a.1
  have : Finite T := Set.Finite.to_subtype (List.finite_toSet rhs.keys)
  have : IsTrans T R := ⟨fun a b c h1 h2 => Relation.TransGen.trans h2 h1⟩
  have : Std.Irrefl R := ⟨fun a h => ha a.1 h⟩
  have hwf : WellFounded R := Finite.wellFounded_of_trans_of_irrefl R
  obtain ⟨k0, hk0, h0⟩ := hex
  obtain ⟨⟨k, hk⟩, hmem, hmin⟩ := hwf.has_min {a : T | precOf prec a.1 = 0} ⟨⟨k0, hk0⟩, h0⟩
  obtain ⟨r, hr⟩ := Dict.exists_get?_of_mem hk
  refine ⟨k, r, Dict.mem_of_get? hr, hmem, ?_⟩
  intro v hv
  by_contra hv0
  have hvk := hc k r (Dict.mem_of_get? hr) v hv
  exact hmin ⟨v, hvk⟩ (show precOf prec v = 0 by omega)
    (Relation.TransGen.single ⟨r, Dict.mem_of_get? hr, hv⟩)

theorem loopPrec_acyclic {rhs : Dict (List String)} (hn : rhs.keys.Nodup)
    (ha : ∀ k, ¬ Relation.TransGen (Dep rhs) k k) (hc : Closed rhs) :
    ∀ {n : Nat} {st : Dict Nat × Nat}, Inv rhs st → st.2 ≤ n →
    ∃ st', loopPrec rhs n st = .ok st' ∧ Inv rhs st' ∧ st'.2 = 0 := by
  intro n
  induction n with
  | zero => intro st hi h; exact ⟨st, rfl, hi, by omega⟩
  | succ n ih =>
    intro st hi h
    by_cases h0 : st.2 > 0
    · obtain ⟨st1, hp⟩ := passPrec_ok hc hi (fun k r hm => Dict.get?_of_mem hn hm)
      obtain ⟨b1, b2, b3, b4, b5⟩ := passPrec_spec hi (fun k r hm => Dict.get?_of_mem hn hm) hp
      have hz : 0 < zeros st.1 := by rw [← hi.count]; exact h0
      rw [zeros_pos_iff (by rw [hi.keys]; exact hn), hi.keys] at hz
      obtain ⟨k, r, hm, hk0, hall⟩ := exists_ready ha hc hz
      have := b4 k r hm hk0 hall
      obtain ⟨st', h1, h2, h3⟩ := ih b1 (by omega)
      exact ⟨st', by simp [loopPrec, h0, hp, h1, bind, Except.bind], h2, h3⟩
    · exact ⟨st, by simp [loopPrec, h0], hi, by omega⟩

theorem loopPrec_ok {rhs : Dict (List String)} (hn : rhs.keys.Nodup) (hc : Closed rhs) :
    ∀ {n : Nat} {st : Dict Nat × Nat}, Inv rhs st → ∃ st', loopPrec rhs n st = .ok st' := by
  intro n
  induction n with
  | zero => intro st _; exact ⟨st, rfl⟩
  | succ n ih =>
    intro st hi
    by_cases h0 : st.2 > 0
    · obtain ⟨st1, hp⟩ := passPrec_ok hc hi (fun k r hm => Dict.get?_of_mem hn hm)
      obtain ⟨b1, _⟩ := passPrec_spec hi (fun k r hm => Dict.get?_of_mem hn hm) hp
      obtain ⟨st', h1⟩ := ih b1
      exact ⟨st', by simp [loopPrec, h0, hp, h1, bind, Except.bind]⟩
    · exact ⟨st, by simp [loopPrec, h0]⟩

theorem tri_ge (n : Nat) : n ≤ n * (n + 1) / 2 := by
  cases n with
  | zero => simp
  | succ n =>
    rw [Nat.le_div_iff_mul_le (by omega)]
    have : n + 1 + 1 ≥ 2 := by omega
    exact Nat.mul_le_mul_left _ this

/-- a table in which every parameter has a precedence gives no cycle -/
theorem acyclic_of_inv {rhs : Dict (List String)} (hn : rhs.keys.Nodup) {st : Dict Nat × Nat}
    (hi : Inv rhs st) (hall : ∀ k ∈ rhs.keys, 0 < precOf st.1 k) (k : String) :
    ¬ Relation.TransGen (Dep rhs) k k := by
  have key : ∀ a b, Relation.TransGen (Dep rhs) a b → precOf st.1 b < precOf st.1 a := by
    intro a b h
    have one : ∀ a b, Dep rhs a b → precOf st.1 b < precOf st.1 a := by
      rintro a b ⟨r, hm, hb⟩
      have hg := Dict.get?_of_mem hn hm
      exact (hi.order a r hg (hall a (Dict.mem_keys_of_get? hg)) b hb).2.2
    induction h with
    | single h => exact one _ _ h
    | tail _ h ih => exact Nat.lt_trans (one _ _ h) ih
  intro h
  exact absurd (key k k h) (by omega)

/-- what a successful run of `order_precedence` looks like -/
theorem orderPrecedence_ok {rhs : Dict (List String)} (hn : rhs.keys.Nodup) {l : List String}
    (h : orderPrecedence rhs = .ok l) :
    ∃ st, Inv rhs st ∧ (∀ k ∈ rhs.keys, 0 < precOf st.1 k) ∧
      l = rhs.keys.insertionSort fun a b => precOf st.1 a ≤ precOf st.1 b := by
  unfold orderPrecedence at h
  simp only [bind, Except.bind] at h
  cases hl : loopPrec rhs _ _ with
  | error e => rw [hl] at h; simp at h
  | ok st =>
    rw [hl] at h
    simp only at h
    have hi := loopPrec_spec hn (inv_init rhs) hl
    split at h
    · simp at h
    · rename_i hz
      injection h with h
      rw [any_zero_iff (by rw [hi.keys]; exact hn), hi.keys] at hz
      refine ⟨st, hi, ?_, ?_⟩
      · intro k hk
        by_contra hk0
        exact hz ⟨k, hk, by omega⟩
      · rw [← h, hi.keys]

theorem orderPrecedence_perm {rhs : Dict (List String)} (hn : rhs.keys.Nodup) {l : List String}
    (h : orderPrecedence rhs = .ok l) : l.Perm rhs.keys := by
  obtain ⟨st, _, _, rfl⟩ := orderPrecedence_ok hn h
  exact List.perm_insertionSort _ _

theorem orderPrecedence_topo {rhs : Dict (List String)} (hn : rhs.keys.Nodup) {l : List String}
    (h : orderPrecedence rhs = .ok l) :
    ∀ pre k post, l = pre ++ k :: post → ∀ v, Dep rhs k v → v ∈ pre := by
  obtain ⟨st, hi, hall, hl⟩ := orderPrecedence_ok hn h
  intro pre k post he v ⟨r, hm, hv⟩
  have hg := Dict.get?_of_mem hn hm
  have hk := hall k (Dict.mem_keys_of_get? hg)
  obtain ⟨hvk, hv0, hlt⟩ := hi.order k r hg hk v hv
  have hvl : v ∈ l := (orderPrecedence_perm hn h).mem_iff.mpr hvk
  have hs : l.Pairwise fun a b => precOf st.1 a ≤ precOf st.1 b := by
    have : Std.Total fun a b => precOf st.1 a ≤ precOf st.1 b := ⟨fun a b => Nat.le_total _ _⟩
    have : IsTrans String fun a b => precOf st.1 a ≤ precOf st.1 b :=
      ⟨fun a b c h1 h2 => Nat.le_trans h1 h2⟩
    rw [hl]
    exact List.pairwise_insertionSort _ _
  rw [he] at hvl hs
  rcases List.mem_append.mp hvl with h1 | h1
  · exact h1
  · exfalso
    rcases List.mem_cons.mp h1 with e | h2
    · subst e; omega
    · have := (List.pairwise_append.mp hs).2.1
      rw [List.pairwise_cons] at this
      have := this.1 v h2
      omega

theorem orderPrecedence_acyclic {rhs : Dict (List String)} (hn : rhs.keys.Nodup)
    {l : List String} (h : orderPrecedence rhs = .ok l) (k : String) :
    ¬ Relation.TransGen (Dep rhs) k k := by
  obtain ⟨st, hi, hall, _⟩ := orderPrecedence_ok hn h
  exact acyclic_of_inv hn hi hall k

theorem orderPrecedence_closed {rhs : Dict (List String)} (hn : rhs.keys.Nodup)
    {l : List String} (h : orderPrecedence rhs = .ok l) : Closed rhs := by
  obtain ⟨st, hi, hall, _⟩ := orderPrecedence_ok hn h
  intro k r hm v hv
  have hg := Dict.get?_of_mem hn hm
  exact (hi.order k r hg (hall k (Dict.mem_keys_of_get? hg)) v hv).1

theorem orderPrecedence_succeeds {rhs : Dict (List String)} (hn : rhs.keys.Nodup)
    (hc : Closed rhs) (ha : ∀ k, ¬ Relation.TransGen (Dep rhs) k k) :
    ∃ l, orderPrecedence rhs = .ok l := by
  have hi := inv_init rhs
  obtain ⟨st, h1, h2, h3⟩ := loopPrec_acyclic hn ha hc hi
    (tri_ge ((initPrec rhs).length - ((initPrec rhs).map Prod.snd).sum))
  unfold orderPrecedence
  simp only [bind, Except.bind, h1]
  have hnk : st.1.keys.Nodup := by rw [h2.keys]; exact hn
  split
  · rename_i hz
    rw [any_zero_iff hnk, ← zeros_pos_iff hnk, ← h2.count] at hz
    omega
  · exact ⟨_, rfl⟩

theorem orderPrecedence_cyclic {rhs : Dict (List String)} (hn : rhs.keys.Nodup)
    (hc : Closed rhs) (ha : ∃ k, Relation.TransGen (Dep rhs) k k) :
    orderPrecedence rhs = .error .calibrationError := by
  cases h : orderPrecedence rhs with
  | ok l =>
    obtain ⟨k, hk⟩ := ha
    exact absurd hk (orderPrecedence_acyclic hn h k)
  | error e =>
    unfold orderPrecedence at h
    simp only [bind, Except.bind] at h
    obtain ⟨st, hl⟩ := loopPrec_ok hn hc
      (n := ((initPrec rhs).length - ((initPrec rhs).map Prod.snd).sum) *
        (((initPrec rhs).length - ((initPrec rhs).map Prod.snd).sum) + 1) / 2) (inv_init rhs)
    rw [hl] at h
    simp only at h
    split at h
    · exact h.symm
    · cases h

theorem orderPrecedence_undefined {rhs : Dict (List String)} (hn : rhs.keys.Nodup)
    (hc : ¬ Closed rhs) : orderPrecedence rhs = .error .keyError := by
  unfold orderPrecedence
  simp only [bind, Except.bind]
  have hex : ∃ k r, (k, r) ∈ rhs ∧ ∃ v ∈ r, v ∉ rhs.keys := by
    unfold Closed at hc
    push Not at hc
    exact hc
  have hi := inv_init rhs
  have hpos : 0 < (initPrec rhs).length - ((initPrec rhs).map Prod.snd).sum := by
    obtain ⟨k, r, hm, v, hv, _⟩ := hex
    have hg := Dict.get?_of_mem hn hm
    have hik := initPrec_keys rhs
    rw [(initPrec_count rhs).1, zeros_pos_iff (by rw [hik]; exact hn)]
    refine ⟨k, by rw [hik]; exact Dict.mem_keys_of_get? hg, ?_⟩
    cases r with
    | nil => simp at hv
    | cons a r => simp [precOf, initPrec_get?, hg]
  have htri := tri_ge ((initPrec rhs).length - ((initPrec rhs).map Prod.snd).sum)
  generalize (initPrec rhs).length - ((initPrec rhs).map Prod.snd).sum = N at *
  cases hN : N * (N + 1) / 2 with
  | zero => omega
  | succ m =>
    simp only [loopPrec]
    rw [if_pos hpos]
    simp only [bind, Except.bind]
    rw [passPrec_keyError hi (fun k r hm => Dict.get?_of_mem hn hm) hex]

end Pynare
