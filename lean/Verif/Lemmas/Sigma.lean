import Verif.Model.Sigma
import Verif.Spec.Sigma
import Verif.Lemmas.Factory
/-! Helper lemmas about the covariance matrix. -/

namespace Pynare

variable {V : Type}

theorem mem_whereName {shks : List (Stoch V)} {o : String} {k : Nat} :
    k ∈ whereName shks o ↔ ∃ s, shks[k]? = some s ∧ s.name = o := by
  simp only [whereName, List.mem_filter, List.mem_range, beq_iff_eq]
  constructor
  · rintro ⟨h, h'⟩
    cases hs : shks[k]? with
    | none => rw [hs] at h'; cases h'
    | some s => rw [hs] at h'; exact ⟨s, rfl, by simpa using h'⟩
  · rintro ⟨s, h, rfl⟩
    refine ⟨?_, by rw [h]; rfl⟩
    exact (List.getElem?_eq_some_iff.mp h).1

theorem whereName_nodup (shks : List (Stoch V)) (o : String) : (whereName shks o).Nodup :=
  List.Nodup.sublist List.filter_sublist List.nodup_range

theorem setPair_symm {sig : Sig V} (h : ∀ a b, sig a b = sig b a) (i j : Nat) (v : V) :
    ∀ a b, setPair sig i j v a b = setPair sig i j v b a := by
  intro a b
  unfold setPair
  by_cases h1 : (a = i ∧ b = j) ∨ (a = j ∧ b = i)
  · rw [if_pos h1, if_pos]
    rcases h1 with ⟨x, y⟩ | ⟨x, y⟩
    · exact Or.inr ⟨y, x⟩
    · exact Or.inl ⟨y, x⟩
  · rw [if_neg h1, if_neg, h a b]
    rintro (⟨x, y⟩ | ⟨x, y⟩)
    · exact h1 (Or.inr ⟨y, x⟩)
    · exact h1 (Or.inl ⟨y, x⟩)

theorem setPairs_symm (i : Nat) (jv : List (Nat × V)) : ∀ {sig : Sig V},
    (∀ a b, sig a b = sig b a) → ∀ a b, setPairs sig i jv a b = setPairs sig i jv b a := by
  induction jv with
  | nil => intro sig h; exact h
  | cons p jv ih => intro sig h; exact ih (setPair_symm h i p.1 p.2)

/-- entries outside row and column `i`, and entries whose partner is not in the list, stay -/
theorem setPairs_other (i : Nat) (jv : List (Nat × V)) : ∀ {sig : Sig V} {a b : Nat},
    ¬ (a = i ∧ b ∈ jv.map Prod.fst) → ¬ (b = i ∧ a ∈ jv.map Prod.fst) →
    setPairs sig i jv a b = sig a b := by
  induction jv with
  | nil => intro sig a b _ _; rfl
  | cons p jv ih =>
    intro sig a b h1 h2
    show setPairs (setPair sig i p.1 p.2) i jv a b = _
    rw [ih (fun h => h1 ⟨h.1, by simp [h.2]⟩) (fun h => h2 ⟨h.1, by simp [h.2]⟩)]
    unfold setPair
    rw [if_neg]
    rintro (⟨x, y⟩ | ⟨x, y⟩)
    · exact h1 ⟨x, by simp [y]⟩
    · exact h2 ⟨y, by simp [x]⟩

theorem setPairs_at (i : Nat) (jv : List (Nat × V)) : ∀ {sig : Sig V} {j : Nat} {v : V},
    (jv.map Prod.fst).Nodup → (j, v) ∈ jv → setPairs sig i jv i j = v ∧ setPairs sig i jv j i = v := by
  induction jv with
  | nil => intro sig j v _ h; simp at h
  | cons p jv ih =>
    intro sig j v hn hm
    simp only [List.map_cons, List.nodup_cons] at hn
    show setPairs (setPair sig i p.1 p.2) i jv i j = v ∧ setPairs (setPair sig i p.1 p.2) i jv j i = v
    rcases List.mem_cons.mp hm with rfl | hm
    · by_cases hij : i = j
      · subst hij
        rw [setPairs_other i jv (fun h => hn.1 h.2) (fun h => hn.1 h.2)]
        simp [setPair]
      · rw [setPairs_other i jv (fun h => hn.1 h.2) (fun h => hij h.1.symm),
          setPairs_other i jv (fun h => hij h.1.symm) (fun h => hn.1 h.2)]
        simp [setPair]
    · exact ih hn.2 hm

theorem sigmaStep_symm [Mul V] {sqrt : V → V} {shks : List (Stoch V)} {sig sig' : Sig V} {i : Nat}
    {shk : Stoch V} (hs : ∀ a b, sig a b = sig b a) (h : sigmaStep sqrt shks sig i shk = .ok sig') :
    ∀ a b, sig' a b = sig' b a := by
  simp only [sigmaStep, Except.bind_ok_iff, corrStep, covStep] at h
  obtain ⟨s1, h1, h2⟩ := h
  have hs1 : ∀ a b, s1 a b = s1 b a := by
    split at h1
    · split at h1
      · simp at h1; subst h1; exact setPairs_symm _ _ hs
      · split at h1
        · simp at h1; subst h1; exact hs
        · simp at h1
    · simp at h1; subst h1; exact hs
  split at h2
  · simp at h2; subst h2; exact setPairs_symm _ _ hs1
  · simp at h2; subst h2; exact hs1

theorem map_fst_const (js : List Nat) (f : Nat → V) : (js.map fun k => (k, f k)).map Prod.fst = js := by
  induction js with
  | nil => rfl
  | cons a js ih => simpa using ih

/-- what a step leaves alone -/
theorem sigmaStep_other [Mul V] {sqrt : V → V} {shks : List (Stoch V)} {sig sig' : Sig V} {i : Nat}
    {shk : Stoch V} (h : sigmaStep sqrt shks sig i shk = .ok sig') {a b : Nat}
    (h1 : ¬ (a = i ∧ b ∈ whereName shks shk.other)) (h2 : ¬ (b = i ∧ a ∈ whereName shks shk.other)) :
    sig' a b = sig a b := by
  simp only [sigmaStep, Except.bind_ok_iff, corrStep, covStep] at h
  obtain ⟨s1, g1, g2⟩ := h
  have hs1 : s1 a b = sig a b := by
    split at g1
    · split at g1
      · simp at g1; subst g1
        exact setPairs_other _ _ (by rw [map_fst_const]; exact h1) (by rw [map_fst_const]; exact h2)
      · split at g1
        · simp at g1; subst g1; rfl
        · simp at g1
    · simp at g1; subst g1; rfl
  split at g2
  · simp at g2; subst g2
    rw [setPairs_other _ _ (by rw [map_fst_const _ (fun _ => _)]; exact h1)
      (by rw [map_fst_const _ (fun _ => _)]; exact h2)]
    exact hs1
  · simp at g2; subst g2; exact hs1

/-- what shock `s` says about its covariance with a shock of variance `d` -/
def entry [Mul V] (sqrt : V → V) (s : Stoch V) (d : V) : Option V :=
  match s.cov with
  | some c => some c
  | none => match s.corr, s.variance with
    | some c, some v => some (sqrt (v * d) * c)
    | _, _ => none

/-- what a step does to the entry of its own shock and a partner -/
theorem sigmaStep_at [Mul V] {sqrt : V → V} {shks : List (Stoch V)} {sig sig' : Sig V} {i : Nat}
    {shk : Stoch V} (h : sigmaStep sqrt shks sig i shk = .ok sig') {j : Nat}
    (hj : j ∈ whereName shks shk.other) :
    sig' i j = (entry sqrt shk (sig j j)).getD (sig i j) := by
  have hn := whereName_nodup shks shk.other
  simp only [sigmaStep, Except.bind_ok_iff, corrStep, covStep] at h
  obtain ⟨s1, g1, g2⟩ := h
  cases hc : shk.cov with
  | some c =>
    rw [hc] at g2
    simp at g2; subst g2
    simp only [entry, hc, Option.getD_some]
    have hm : (j, c) ∈ (whereName shks shk.other).map fun k => (k, c) := List.mem_map.mpr ⟨j, hj, rfl⟩
    exact (setPairs_at i _ (by rw [map_fst_const _ (fun _ => c)]; exact hn) hm).1
  | none =>
    rw [hc] at g2
    simp at g2; subst g2
    simp only [entry, hc]
    cases hr : shk.corr with
    | none => rw [hr] at g1; simp at g1; subst g1; rfl
    | some c =>
      rw [hr] at g1
      cases hv : shk.variance with
      | none =>
        rw [hv] at g1
        simp only at g1
        rw [if_neg (by intro h; rw [h] at hj; simp at hj)] at g1
        simp at g1
      | some v =>
        rw [hv] at g1
        simp at g1; subst g1
        simp only [Option.getD_some]
        have hm : (j, sqrt (v * sig j j) * c) ∈
            (whereName shks shk.other).map fun k => (k, sqrt (v * sig k k) * c) :=
          List.mem_map.mpr ⟨j, hj, rfl⟩
        exact (setPairs_at i _
          (by rw [map_fst_const _ (fun k => sqrt (v * sig k k) * c)]; exact hn) hm).1

theorem sigmaDiag_symm [Zero V] (shks : List (Stoch V)) (a b : Nat) :
    sigmaDiag shks a b = sigmaDiag shks b a := by
  unfold sigmaDiag
  by_cases h : a = b
  · subst h; rfl
  · simp [h, Ne.symm h]

theorem sigmaLoop_symm [Zero V] [Mul V] {sqrt : V → V} {shks : List (Stoch V)} :
    ∀ {t : Nat} {sig : Sig V}, sigmaLoop sqrt shks t = .ok sig → ∀ a b, sig a b = sig b a := by
  intro t
  induction t with
  | zero => intro sig h; simp [sigmaLoop] at h; subst h; exact sigmaDiag_symm shks
  | succ t ih =>
    intro sig h
    simp only [sigmaLoop, Except.bind_ok_iff] at h
    obtain ⟨s, h1, h2⟩ := h
    split at h2
    · exact sigmaStep_symm (ih h1) h2
    · simp at h2; subst h2; exact ih h1

/-- a shock that names itself as its partner -/
def SelfRef (s : Stoch V) : Prop := s.name = s.other ∧ (s.corr ≠ none ∨ s.cov ≠ none)

theorem sigmaStep_noop [Mul V] {sqrt : V → V} {shks : List (Stoch V)} {sig sig' : Sig V} {i : Nat}
    {shk : Stoch V} (h : sigmaStep sqrt shks sig i shk = .ok sig') (h1 : shk.corr = none)
    (h2 : shk.cov = none) : sig' = sig := by
  simp [sigmaStep, corrStep, covStep, h1, h2, bind, Except.bind] at h
  exact h.symm

theorem sigmaLoop_diag [Zero V] [Mul V] {sqrt : V → V} {shks : List (Stoch V)} (i : Nat)
    (hself : ∀ s, shks[i]? = some s → ¬ SelfRef s) :
    ∀ {t : Nat} {sig : Sig V}, sigmaLoop sqrt shks t = .ok sig →
      sig i i = sigmaDiag shks i i := by
  intro t
  induction t with
  | zero => intro sig h; simp [sigmaLoop] at h; subst h; rfl
  | succ t ih =>
    intro sig h
    simp only [sigmaLoop, Except.bind_ok_iff] at h
    obtain ⟨s, h1, h2⟩ := h
    cases hs : shks[t]? with
    | none => rw [hs] at h2; simp at h2; subst h2; exact ih h1
    | some shk =>
      rw [hs] at h2
      rw [← ih h1]
      by_cases hit : i = t
      · subst hit
        have := hself shk hs
        by_cases hq : shk.corr = none ∧ shk.cov = none
        · rw [sigmaStep_noop h2 hq.1 hq.2]
        · have hne : i ∉ whereName shks shk.other := by
            intro hm
            obtain ⟨s', h3, h4⟩ := mem_whereName.mp hm
            rw [hs] at h3; cases h3
            refine this ⟨h4, ?_⟩
            by_cases hz : shk.corr = none
            · exact Or.inr fun h => hq ⟨hz, h⟩
            · exact Or.inl hz
          exact sigmaStep_other h2 (fun h => hne h.2) (fun h => hne h.2)
      · exact sigmaStep_other h2 (fun h => hit h.1) (fun h => hit h.1)

/-- what shock `i` says about its covariance with shock `j` -/
def tells [Zero V] [Mul V] (sqrt : V → V) (shks : List (Stoch V)) (i j : Nat) : Option V :=
  match shks[i]?, shks[j]? with
  | some s, some u => if s.other = u.name then entry sqrt s (sigmaDiag shks j j) else none
  | _, _ => none

/-- the entry for `a`, `b` after `t` steps: the last of the two shocks that says something wins -/
def lastEntry [Zero V] [Mul V] (sqrt : V → V) (shks : List (Stoch V)) (a b : Nat) : Nat → V
  | 0 => 0
  | t + 1 =>
    if t = a then (tells sqrt shks a b).getD (lastEntry sqrt shks a b t)
    else if t = b then (tells sqrt shks b a).getD (lastEntry sqrt shks a b t)
    else lastEntry sqrt shks a b t

theorem lastEntry_one [Zero V] [Mul V] {sqrt : V → V} {shks : List (Stoch V)} {a b : Nat} {v : V}
    (h1 : tells sqrt shks a b = some v) (h2 : tells sqrt shks b a = none) :
    ∀ t, a < t → lastEntry sqrt shks a b t = v := by
  intro t
  induction t with
  | zero => intro h; omega
  | succ t ih =>
    intro h
    simp only [lastEntry]
    by_cases e : t = a
    · rw [if_pos e, h1]; rfl
    · rw [if_neg e, h2]
      have := ih (by omega)
      split <;> simpa using this

theorem lastEntry_none [Zero V] [Mul V] {sqrt : V → V} {shks : List (Stoch V)} {a b : Nat}
    (h1 : tells sqrt shks a b = none) (h2 : tells sqrt shks b a = none) :
    ∀ t, lastEntry sqrt shks a b t = 0 := by
  intro t
  induction t with
  | zero => rfl
  | succ t ih => simp [lastEntry, h1, h2, ih]

theorem sigmaLoop_entry [Zero V] [Mul V] {sqrt : V → V} {shks : List (Stoch V)}
    (hself : ∀ s ∈ shks, ¬ SelfRef s) {a b : Nat} (hab : a ≠ b) (ha : a < shks.length)
    (hb : b < shks.length) :
    ∀ {t : Nat} {sig : Sig V}, sigmaLoop sqrt shks t = .ok sig →
      sig a b = lastEntry sqrt shks a b t := by
  intro t
  induction t with
  | zero =>
    intro sig h; simp [sigmaLoop] at h; subst h
    simp [sigmaDiag, lastEntry, hab]
  | succ t ih =>
    intro sig h
    simp only [sigmaLoop, Except.bind_ok_iff] at h
    obtain ⟨s, h1, h2⟩ := h
    have hsy := sigmaLoop_symm h1
    have hdiag : ∀ j, s j j = sigmaDiag shks j j := fun j =>
      sigmaLoop_diag j (fun s' hs' => hself s' (List.mem_of_getElem? hs')) h1
    -- one step at the index of one of the two
    have step : ∀ i j, t = i → i ≠ j → i < shks.length → j < shks.length →
        sig i j = (tells sqrt shks i j).getD (s i j) := by
      intro i j hti hij hi hj
      subst hti
      unfold tells
      rw [List.getElem?_eq_getElem hi, List.getElem?_eq_getElem hj]
      rw [List.getElem?_eq_getElem hi] at h2
      simp only at h2 ⊢
      by_cases ho : shks[t].other = shks[j].name
      · rw [if_pos ho]
        have hm : j ∈ whereName shks shks[t].other :=
          mem_whereName.mpr ⟨shks[j], List.getElem?_eq_getElem hj, ho.symm⟩
        rw [sigmaStep_at h2 hm, hdiag]
      · rw [if_neg ho]
        refine sigmaStep_other h2 ?_ (fun h => hij h.1.symm)
        rintro ⟨_, hm⟩
        obtain ⟨u, h3, h4⟩ := mem_whereName.mp hm
        rw [List.getElem?_eq_getElem hj] at h3
        cases h3; exact ho h4.symm
    simp only [lastEntry]
    by_cases hta : t = a
    · rw [if_pos hta, step a b hta hab ha hb, ih h1]
    · rw [if_neg hta]
      by_cases htb : t = b
      · rw [if_pos htb, sigmaLoop_symm (t := t + 1) (sig := sig) (by
            simp only [sigmaLoop, Except.bind_ok_iff]; exact ⟨s, h1, h2⟩) a b,
          step b a htb (Ne.symm hab) hb ha, hsy b a, ih h1]
      · rw [if_neg htb, ← ih h1]
        cases hs : shks[t]? with
        | none => rw [hs] at h2; simp at h2; subst h2; rfl
        | some shk =>
          rw [hs] at h2
          exact sigmaStep_other h2 (fun h => hta h.1.symm) (fun h => htb h.1.symm)

theorem sigmaLoop_ok [Zero V] [Mul V] {sqrt : V → V} {shks : List (Stoch V)}
    (h : ∀ s ∈ shks, s.corr ≠ none → s.variance ≠ none) (t : Nat) :
    ∃ sig, sigmaLoop sqrt shks t = .ok sig := by
  induction t with
  | zero => exact ⟨_, rfl⟩
  | succ t ih =>
    obtain ⟨sig, h1⟩ := ih
    simp only [sigmaLoop, h1, bind, Except.bind]
    cases hs : shks[t]? with
    | none => exact ⟨_, rfl⟩
    | some shk =>
      have hv := h shk (List.mem_of_getElem? hs)
      simp only [sigmaStep, corrStep, covStep, bind, Except.bind]
      cases hc : shk.corr with
      | none => cases shk.cov <;> exact ⟨_, rfl⟩
      | some c =>
        cases hv' : shk.variance with
        | none => exact absurd hv' (hv (by simp [hc]))
        | some v => cases shk.cov <;> exact ⟨_, rfl⟩

/-! ### the shocks block -/

/-- what the dictionary of shocks says about `x` -/
def sdOf (d : Dict (ShockDict V)) (x : String) : ShockDict V := (d.get? x).getD {}

theorem sdOf_set (d : Dict (ShockDict V)) (x y : String) (v : ShockDict V) :
    sdOf (d.set x v) y = if x = y then v else sdOf d y := by
  unfold sdOf
  rw [Dict.get?_set]
  by_cases e : x = y <;> simp [e]

theorem facShock_spec {ops : Ops V} {sq : V → Except Err V} {look : String → Option V}
    {d d' : Dict (ShockDict V)} {s : Shock V} (h : facShock ops sq look d s = .ok d') :
    (∀ x, ¬ s.isVarOf x → (sdOf d' x).variance = (sdOf d x).variance) ∧
    (∀ x, ¬ s.isPairOf x → (sdOf d' x).other = (sdOf d x).other ∧
      (sdOf d' x).corr = (sdOf d x).corr ∧ (sdOf d' x).cov = (sdOf d x).cov) ∧
    (∀ x, ¬ s.isVarOf x → ¬ s.isPairOf x → d'.get? x = d.get? x) ∧
    (∀ x, s.isVarOf x ∨ s.isPairOf x → d'.get? x ≠ none) ∧
    (∀ x, d.get? x ≠ none → d'.get? x ≠ none) ∧
    (∀ x v, SetsVar ops sq look s x v → (sdOf d' x).variance = some v) ∧
    (∀ x y, s.isPair x y → (sdOf d' x).other = some y) ∧
    (∀ x y e c, s = .corr x y e → Evals ops look e c →
      (sdOf d' x).corr = some c ∧ (sdOf d' x).cov = (sdOf d x).cov) ∧
    (∀ x y e c, s = .cov x y e → Evals ops look e c → (sdOf d' x).cov = some c) := by
  cases s with
  | det x ps vs => simp [facShock] at h
  | variance z e =>
    simp only [facShock, Except.bind_ok_iff] at h
    obtain ⟨v, hv, h⟩ := h
    simp at h; subst h
    refine ⟨?_, ?_, ?_, ?_, ?_, ?_, ?_, ?_, ?_⟩
    · intro x hx; rw [sdOf_set, if_neg (show ¬ z = x from hx)]
    · intro x _; rw [sdOf_set]; split
      · rename_i e; subst e; exact ⟨rfl, rfl, rfl⟩
      · exact ⟨rfl, rfl, rfl⟩
    · intro x hx _; rw [Dict.get?_set, if_neg (show ¬ z = x from hx)]
    · rintro x (hx | hx)
      · have : z = x := hx
        subst this; rw [Dict.get?_set_self]; simp
      · cases hx
    · intro x hx; rw [Dict.get?_set]; split
      · simp
      · exact hx
    · intro x w hw
      cases hw with
      | variance he =>
        rw [(fileEval_iff ops look e w).mpr he] at hv
        rw [sdOf_set, if_pos rfl]; simp at hv; subst hv; rfl
    · intro x y h; cases h
    · intro x y e' c h; cases h
    · intro x y e' c h; cases h
  | stderr z e =>
    simp only [facShock, Except.bind_ok_iff] at h
    obtain ⟨v, hv, h⟩ := h
    cases v with
    | none => simp at h
    | some v =>
    simp only [Except.bind_ok_iff] at h
    obtain ⟨u, hu, h⟩ := h
    simp at h; subst h
    refine ⟨?_, ?_, ?_, ?_, ?_, ?_, ?_, ?_, ?_⟩
    · intro x hx; rw [sdOf_set, if_neg (show ¬ z = x from hx)]
    · intro x _; rw [sdOf_set]; split
      · rename_i e; subst e; exact ⟨rfl, rfl, rfl⟩
      · exact ⟨rfl, rfl, rfl⟩
    · intro x hx _; rw [Dict.get?_set, if_neg (show ¬ z = x from hx)]
    · rintro x (hx | hx)
      · have : z = x := hx
        subst this; rw [Dict.get?_set_self]; simp
      · cases hx
    · intro x hx; rw [Dict.get?_set]; split
      · simp
      · exact hx
    · intro x w hw
      cases hw with
      | @stderr _ _ v' w he hsq =>
        rw [(fileEval_iff ops look e v').mpr he] at hv
        simp at hv; subst hv
        rw [hu] at hsq; cases hsq
        rw [sdOf_set, if_pos rfl]
    · intro x y h; cases h
    · intro x y e' c h; cases h
    · intro x y e' c h; cases h
  | corr z w e =>
    simp only [facShock, Except.bind_ok_iff] at h
    obtain ⟨v, hv, h⟩ := h
    simp at h; subst h
    refine ⟨?_, ?_, ?_, ?_, ?_, ?_, ?_, ?_, ?_⟩
    · intro x _; rw [sdOf_set]; split
      · rename_i e; subst e; rfl
      · rfl
    · intro x hx; rw [sdOf_set, if_neg (show ¬ z = x from hx)]; exact ⟨rfl, rfl, rfl⟩
    · intro x _ hx; rw [Dict.get?_set, if_neg (show ¬ z = x from hx)]
    · rintro x (hx | hx)
      · cases hx
      · have : z = x := hx
        subst this; rw [Dict.get?_set_self]; simp
    · intro x hx; rw [Dict.get?_set]; split
      · simp
      · exact hx
    · intro x w hw; cases hw
    · rintro x y ⟨rfl, rfl⟩; rw [sdOf_set, if_pos rfl]
    · intro x y e' c h he
      cases h
      rw [(fileEval_iff ops look e c).mpr he] at hv
      simp at hv; subst hv
      rw [sdOf_set, if_pos rfl]; exact ⟨rfl, rfl⟩
    · intro x y e' c h; cases h
  | cov z w e =>
    simp only [facShock, Except.bind_ok_iff] at h
    obtain ⟨v, hv, h⟩ := h
    simp at h; subst h
    refine ⟨?_, ?_, ?_, ?_, ?_, ?_, ?_, ?_, ?_⟩
    · intro x _; rw [sdOf_set]; split
      · rename_i e; subst e; rfl
      · rfl
    · intro x hx; rw [sdOf_set, if_neg (show ¬ z = x from hx)]; exact ⟨rfl, rfl, rfl⟩
    · intro x _ hx; rw [Dict.get?_set, if_neg (show ¬ z = x from hx)]
    · rintro x (hx | hx)
      · cases hx
      · have : z = x := hx
        subst this; rw [Dict.get?_set_self]; simp
    · intro x hx; rw [Dict.get?_set]; split
      · simp
      · exact hx
    · intro x w hw; cases hw
    · rintro x y ⟨rfl, rfl⟩; rw [sdOf_set, if_pos rfl]
    · intro x y e' c h; cases h
    · intro x y e' c h he
      cases h
      rw [(fileEval_iff ops look e c).mpr he] at hv
      simp at hv; subst hv
      rw [sdOf_set, if_pos rfl]

theorem facShocks_append {ops : Ops V} {sq : V → Except Err V} {look : String → Option V}
    (pre post : List (Shock V)) : ∀ {d d' : Dict (ShockDict V)},
    facShocks ops sq look d (pre ++ post) = .ok d' →
    ∃ d1, facShocks ops sq look d pre = .ok d1 ∧ facShocks ops sq look d1 post = .ok d' := by
  induction pre with
  | nil => intro d d' h; exact ⟨d, rfl, h⟩
  | cons s pre ih =>
    intro d d' h
    simp only [List.cons_append, facShocks, Except.bind_ok_iff] at h ⊢
    obtain ⟨d1, h1, h2⟩ := h
    obtain ⟨d2, h3, h4⟩ := ih h2
    exact ⟨d2, ⟨d1, h1, h3⟩, h4⟩

theorem facShocks_keep {ops : Ops V} {sq : V → Except Err V} {look : String → Option V}
    (x : String) (ss : List (Shock V)) : ∀ {d d' : Dict (ShockDict V)},
    facShocks ops sq look d ss = .ok d' →
    ((∀ s ∈ ss, ¬ s.isVarOf x) → (sdOf d' x).variance = (sdOf d x).variance) ∧
    ((∀ s ∈ ss, ¬ s.isPairOf x) → (sdOf d' x).other = (sdOf d x).other ∧
      (sdOf d' x).corr = (sdOf d x).corr ∧ (sdOf d' x).cov = (sdOf d x).cov) ∧
    ((∀ s ∈ ss, ¬ s.isVarOf x ∧ ¬ s.isPairOf x) → d'.get? x = d.get? x) ∧
    (d.get? x ≠ none → d'.get? x ≠ none) := by
  induction ss with
  | nil => intro d d' h; simp [facShocks] at h; subst h; simp
  | cons s ss ih =>
    intro d d' h
    simp only [facShocks, Except.bind_ok_iff] at h
    obtain ⟨d1, h1, h2⟩ := h
    obtain ⟨a1, a2, a3, a4⟩ := ih h2
    obtain ⟨b1, b2, b3, _, b5, _⟩ := facShock_spec h1
    refine ⟨?_, ?_, ?_, fun h => a4 (b5 x h)⟩
    · intro h
      rw [a1 (fun t ht => h t (List.mem_cons_of_mem _ ht)), b1 x (h s (by simp))]
    · intro h
      obtain ⟨c1, c2, c3⟩ := a2 (fun t ht => h t (List.mem_cons_of_mem _ ht))
      obtain ⟨e1, e2, e3⟩ := b2 x (h s (by simp))
      exact ⟨c1.trans e1, c2.trans e2, c3.trans e3⟩
    · intro h
      rw [a3 (fun t ht => h t (List.mem_cons_of_mem _ ht)),
        b3 x (h s (by simp)).1 (h s (by simp)).2]

/-- a statement in the middle of the block whose subject is not mentioned again -/
theorem facShocks_at {ops : Ops V} {sq : V → Except Err V} {look : String → Option V}
    {pre post : List (Shock V)} {s : Shock V} {d : Dict (ShockDict V)}
    (h : facShocks ops sq look [] (pre ++ s :: post) = .ok d) (x : String) :
    (s.isVarOf x ∨ s.isPairOf x → d.get? x ≠ none) ∧
    ((∀ t ∈ post, ¬ t.isVarOf x) → ∀ v, SetsVar ops sq look s x v → (sdOf d x).variance = some v) ∧
    ((∀ t ∈ post, ¬ t.isPairOf x) → ∀ y, s.isPair x y → (sdOf d x).other = some y) ∧
    ((∀ t ∈ pre, ¬ t.isPairOf x) → (∀ t ∈ post, ¬ t.isPairOf x) → ∀ y e c, s = .corr x y e →
      Evals ops look e c → (sdOf d x).corr = some c ∧ (sdOf d x).cov = none) ∧
    ((∀ t ∈ post, ¬ t.isPairOf x) → ∀ y e c, s = .cov x y e →
      Evals ops look e c → (sdOf d x).cov = some c) := by
  obtain ⟨d1, h1, h2⟩ := facShocks_append pre (s :: post) h
  simp only [facShocks, Except.bind_ok_iff] at h2
  obtain ⟨d2, h3, h4⟩ := h2
  obtain ⟨a1, a2, a3, a4⟩ := facShocks_keep x post h4
  obtain ⟨_, b2, _, _⟩ := facShocks_keep x pre h1
  obtain ⟨_, _, _, c4, _, c6, c7, c8, c9⟩ := facShock_spec h3
  refine ⟨fun h => a4 (c4 x h), ?_, ?_, ?_, ?_⟩
  · intro hp v hv; rw [a1 hp]; exact c6 x v hv
  · intro hp y hy; rw [(a2 hp).1]; exact c7 x y hy
  · intro hp hq y e c he hv
    obtain ⟨g1, g2⟩ := c8 x y e c he hv
    refine ⟨by rw [(a2 hq).2.1]; exact g1, ?_⟩
    rw [(a2 hq).2.2, g2, (b2 hp).2.2]; rfl
  · intro hq y e c he hv
    rw [(a2 hq).2.2]; exact c9 x y e c he hv

theorem Shock.isPairOf_of_isPair {s : Shock V} {x y : String} (h : s.isPair x y) : s.isPairOf x := by
  cases s <;> first | exact h.1 | exact h

theorem Shock.isPair_of_isPairOf {s : Shock V} {x : String} (h : s.isPairOf x) :
    ∃ y, s.isPair x y := by
  cases s with
  | corr a b _ => exact ⟨b, h, rfl⟩
  | cov a b _ => exact ⟨b, h, rfl⟩
  | variance => exact absurd h id
  | stderr => exact absurd h id
  | det => exact absurd h id

theorem SetsVar.isVarOf {ops : Ops V} {sq : V → Except Err V} {look : String → Option V}
    {s : Shock V} {x : String} {v : V} (h : SetsVar ops sq look s x v) : s.isVarOf x := by
  cases h <;> rfl

section block
variable {ops : Ops V} {sq : V → Except Err V} {look : String → Option V} {names : List String}
  {ss : List (Shock V)} {d : Dict (ShockDict V)}

theorem noPairBefore (hp : PlainShocks names ss) {pre post : List (Shock V)} {s : Shock V}
    (he : ss = pre ++ s :: post) {x : String} (hs : s.isPairOf x) : ∀ t ∈ pre, ¬ t.isPairOf x := by
  intro t ht hx
  obtain ⟨a, b, rfl⟩ := List.append_of_mem ht
  exact hp.onePair a t (b ++ s :: post) (by rw [he]; simp) x hx s (by simp) hs

theorem plain_var (hp : PlainShocks names ss) (h : facShocks ops sq look [] ss = .ok d)
    {s : Shock V} (hs : s ∈ ss) {x : String} {v : V} (hv : SetsVar ops sq look s x v) :
    (sdOf d x).variance = some v := by
  obtain ⟨pre, post, he⟩ := List.append_of_mem hs
  rw [he] at h
  exact (facShocks_at h x).2.1 (hp.oneVar pre s post he x hv.isVarOf) v hv

theorem plain_other (hp : PlainShocks names ss) (h : facShocks ops sq look [] ss = .ok d)
    {s : Shock V} (hs : s ∈ ss) {x y : String} (hv : s.isPair x y) :
    (sdOf d x).other = some y := by
  obtain ⟨pre, post, he⟩ := List.append_of_mem hs
  rw [he] at h
  exact (facShocks_at h x).2.2.1 (hp.onePair pre s post he x (Shock.isPairOf_of_isPair hv)) y hv

theorem plain_corr (hp : PlainShocks names ss) (h : facShocks ops sq look [] ss = .ok d)
    {x y : String} {e : Expr V} {c : V} (hs : Shock.corr x y e ∈ ss) (hv : Evals ops look e c) :
    (sdOf d x).corr = some c ∧ (sdOf d x).cov = none := by
  obtain ⟨pre, post, he⟩ := List.append_of_mem hs
  have hx : (Shock.corr x y e).isPairOf x := rfl
  have h' := h
  rw [he] at h'
  exact (facShocks_at h' x).2.2.2.1 (noPairBefore hp he hx) (hp.onePair pre _ post he x hx) y e c rfl hv

theorem plain_cov (hp : PlainShocks names ss) (h : facShocks ops sq look [] ss = .ok d)
    {x y : String} {e : Expr V} {c : V} (hs : Shock.cov x y e ∈ ss) (hv : Evals ops look e c) :
    (sdOf d x).cov = some c := by
  obtain ⟨pre, post, he⟩ := List.append_of_mem hs
  have hx : (Shock.cov x y e).isPairOf x := rfl
  have h' := h
  rw [he] at h'
  exact (facShocks_at h' x).2.2.2.2 (hp.onePair pre _ post he x hx) y e c rfl hv

theorem get_of_mentioned (h : facShocks ops sq look [] ss = .ok d) {s : Shock V} (hs : s ∈ ss)
    {x : String} (hx : s.isVarOf x ∨ s.isPairOf x) : d.get? x = some (sdOf d x) := by
  obtain ⟨pre, post, he⟩ := List.append_of_mem hs
  rw [he] at h
  have := (facShocks_at h x).1 hx
  unfold sdOf
  cases hd : d.get? x with
  | none => exact absurd hd this
  | some a => rfl

/-- the stochastic variable made for `x`: its partner and what it says -/
theorem createStoch_pair [One V] (h : facShocks ops sq look [] ss = .ok d) {x : String}
    (hx : (createStoch d x).corr ≠ none ∨ (createStoch d x).cov ≠ none) :
    ∃ s ∈ ss, ∃ y, s.isPair x y := by
  by_cases hn : ∀ s ∈ ss, ¬ s.isPairOf x
  · exfalso
    obtain ⟨_, h2, _⟩ := facShocks_keep x ss h
    obtain ⟨_, h3, h4⟩ := h2 hn
    have e3 : (sdOf d x).corr = none := h3
    have e4 : (sdOf d x).cov = none := h4
    unfold createStoch at hx
    unfold sdOf at e3 e4
    cases hd : d.get? x with
    | none => rw [hd] at hx; simp at hx
    | some a => rw [hd] at hx e3 e4; simp at hx e3 e4; simp [e3, e4] at hx
  · simp only [not_forall, Classical.not_not] at hn
    obtain ⟨s, hs, hx⟩ := hn
    exact ⟨s, hs, Shock.isPair_of_isPairOf hx⟩

theorem createStoch_of_get [One V] {x : String} {sd : ShockDict V} (h : d.get? x = some sd) :
    createStoch d x = ⟨x, sd.other.getD "", sd.variance, sd.corr, sd.cov⟩ := by
  simp [createStoch, h]

theorem plain_selfRef [One V] (hp : PlainShocks names ss) (h : facShocks ops sq look [] ss = .ok d)
    (x : String) : ¬ SelfRef (createStoch d x) := by
  rintro ⟨h1, h2⟩
  obtain ⟨s, hs, y, hy⟩ := createStoch_pair h h2
  have hg := get_of_mentioned h hs (.inr (Shock.isPairOf_of_isPair hy))
  rw [createStoch_of_get hg, plain_other hp h hs hy] at h1
  exact (hp.proper s hs x y hy).1 h1

theorem plain_tells_none [One V] [Zero V] [Mul V] {sqrt : V → V} (hp : PlainShocks names ss)
    (h : facShocks ops sq look [] ss = .ok d) {i j : Nat} {x y : String}
    (hi : names[i]? = some x) (hj : names[j]? = some y) (hno : ∀ t ∈ ss, ¬ t.isPair x y) :
    tells sqrt (createStochs d names) i j = none := by
  have e1 : (createStochs d names)[i]? = some (createStoch d x) := by
    simp [createStochs, hi]
  have e2 : (createStochs d names)[j]? = some (createStoch d y) := by
    simp [createStochs, hj]
  unfold tells
  rw [e1, e2]
  simp only
  have hny : (createStoch d y).name = y := by unfold createStoch; split <;> rfl
  rw [hny]
  split
  · rename_i ho
    by_cases hc : (createStoch d x).corr ≠ none ∨ (createStoch d x).cov ≠ none
    · obtain ⟨s, hs, z, hz⟩ := createStoch_pair h hc
      have hg := get_of_mentioned h hs (.inr (Shock.isPairOf_of_isPair hz))
      rw [createStoch_of_get hg, plain_other hp h hs hz] at ho
      have : z = y := ho
      subst this
      exact absurd hz (hno s hs)
    · simp only [not_or, Classical.not_not] at hc
      simp [entry, hc.1, hc.2]
  · rfl

theorem plain_tells [One V] [Zero V] [Mul V] {sqrt : V → V} (hp : PlainShocks names ss)
    (h : facShocks ops sq look [] ss = .ok d) {i j : Nat} {x y : String} {s : Shock V}
    (hi : names[i]? = some x) (hj : names[j]? = some y) (hs : s ∈ ss) (hxy : s.isPair x y) :
    tells sqrt (createStochs d names) i j = entry sqrt (createStoch d x)
      (sigmaDiag (createStochs d names) j j) := by
  have e1 : (createStochs d names)[i]? = some (createStoch d x) := by
    simp [createStochs, hi]
  have e2 : (createStochs d names)[j]? = some (createStoch d y) := by
    simp [createStochs, hj]
  unfold tells
  rw [e1, e2]
  simp only
  have hny : (createStoch d y).name = y := by unfold createStoch; split <;> rfl
  rw [hny, if_pos]
  have hg := get_of_mentioned h hs (.inr (Shock.isPairOf_of_isPair hxy))
  rw [createStoch_of_get hg, plain_other hp h hs hxy]; rfl

end block

end Pynare
