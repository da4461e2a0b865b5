import Verif.Lemmas.Calib
import Verif.Lemmas.Expr
import Verif.Spec.Calib
/-! Helper lemmas: evaluation of calibrations. -/

namespace Pynare

variable {V : Type}

theorem mem_setAdd {s : List String} {x y : String} : y ∈ setAdd s x ↔ y ∈ s ∨ y = x := by
  unfold setAdd
  split
  · rename_i h
    constructor
    · exact Or.inl
    · rintro (h' | rfl)
      · exact h'
      · exact h
  · simp

theorem mem_locate : ∀ {e : Expr V} {s t : List String}, locate e s = .ok t →
    ∀ y, y ∈ t ↔ y ∈ s ∨ y ∈ e.vars := by
  intro e
  induction e with
  | num v => intro s t h y; simp [locate] at h; subst h; simp [Expr.vars]
  | var x => intro s t h y; simp [locate] at h; subst h; simp [Expr.vars, mem_setAdd]
  | pvar x o => intro s t h; simp [locate] at h
  | cmp op l r _ _ => intro s t h; simp [locate] at h
  | un op e ih => intro s t h; exact ih h
  | fn f e ih => intro s t h; exact ih h
  | bin op l r ihl ihr =>
    intro s t h y
    simp only [locate, bind, Except.bind] at h
    cases hl : locate l s with
    | error e => rw [hl] at h; simp at h
    | ok s' =>
      rw [hl] at h
      rw [ihr h y, ihl hl y]
      simp [Expr.vars, or_assoc]

theorem mem_rhsOf {d : Def V} {r : List String} (h : rhsOf d = .ok r) (y : String) :
    y ∈ r ↔ y ∈ d.vars := by
  cases d with
  | num v => simp [rhsOf] at h; subst h; simp [Def.vars]
  | ast e => rw [mem_locate h y]; simp [Def.vars]

theorem rhsVars_cons {k : String} {d : Def V} {defs : Dict (Def V)} {rhs : Dict (List String)}
    (h : rhsVars ((k, d) :: defs) = .ok rhs) :
    ∃ r rs, rhsOf d = .ok r ∧ rhsVars defs = .ok rs ∧ rhs = (k, r) :: rs := by
  simp only [rhsVars, bind, Except.bind] at h
  cases hr : rhsOf d with
  | error e => rw [hr] at h; simp at h
  | ok r =>
    rw [hr] at h
    simp only at h
    cases hrs : rhsVars defs with
    | error e => rw [hrs] at h; simp at h
    | ok rs =>
      rw [hrs] at h
      simp only at h
      injection h with h
      exact ⟨r, rs, rfl, rfl, h.symm⟩

theorem rhsVars_keys : ∀ {defs : Dict (Def V)} {rhs : Dict (List String)},
    rhsVars defs = .ok rhs → rhs.keys = defs.keys := by
  intro defs
  induction defs with
  | nil => intro rhs h; simp [rhsVars] at h; subst h; rfl
  | cons p defs ih =>
    obtain ⟨k, d⟩ := p
    intro rhs h
    obtain ⟨r, rs, _, h2, rfl⟩ := rhsVars_cons h
    have := ih h2
    simp [Dict.keys] at *
    exact this

theorem rhsVars_mem : ∀ {defs : Dict (Def V)} {rhs : Dict (List String)},
    rhsVars defs = .ok rhs → ∀ k d, (k, d) ∈ defs → ∃ r, (k, r) ∈ rhs ∧ rhsOf d = .ok r := by
  intro defs
  induction defs with
  | nil => intro rhs _ k d h; simp at h
  | cons p defs ih =>
    obtain ⟨k, d⟩ := p
    intro rhs h k' d' hm
    obtain ⟨r, rs, h1, h2, rfl⟩ := rhsVars_cons h
    rcases List.mem_cons.mp hm with e | hm
    · cases e; exact ⟨r, by simp, h1⟩
    · obtain ⟨r', hr, hr'⟩ := ih h2 k' d' hm
      exact ⟨r', by simp [hr], hr'⟩

theorem rhsVars_mem' : ∀ {defs : Dict (Def V)} {rhs : Dict (List String)},
    rhsVars defs = .ok rhs → ∀ k r, (k, r) ∈ rhs → ∃ d, (k, d) ∈ defs ∧ rhsOf d = .ok r := by
  intro defs
  induction defs with
  | nil => intro rhs h k r hm; simp [rhsVars] at h; subst h; simp at hm
  | cons p defs ih =>
    obtain ⟨k, d⟩ := p
    intro rhs h k' r' hm
    obtain ⟨r, rs, h1, h2, rfl⟩ := rhsVars_cons h
    rcases List.mem_cons.mp hm with e | hm
    · cases e; exact ⟨d, by simp, h1⟩
    · obtain ⟨d', hd, hd'⟩ := ih h2 k' r' hm
      exact ⟨d', by simp [hd], hd'⟩

theorem rhsVars_ok_iff (defs : Dict (Def V)) :
    (∃ rhs, rhsVars defs = .ok rhs) ↔ ∀ k d, (k, d) ∈ defs → ∃ r, rhsOf d = .ok r := by
  constructor
  · rintro ⟨rhs, h⟩ k d hm
    obtain ⟨r, _, h'⟩ := rhsVars_mem h k d hm
    exact ⟨r, h'⟩
  · induction defs with
    | nil => intro _; exact ⟨[], rfl⟩
    | cons p defs ih =>
      obtain ⟨k, d⟩ := p
      intro h
      obtain ⟨r, hr⟩ := h k d (by simp)
      obtain ⟨rs, hrs⟩ := ih (fun k' d' hm => h k' d' (by simp [hm]))
      exact ⟨(k, r) :: rs, by simp [rhsVars, hr, hrs, bind, Except.bind]⟩

theorem dep_iff {defs : Dict (Def V)} {rhs : Dict (List String)} (h : rhsVars defs = .ok rhs)
    (k v : String) : Dep rhs k v ↔ Mentions defs k v := by
  constructor
  · rintro ⟨r, hm, hv⟩
    obtain ⟨d, hd, hr⟩ := rhsVars_mem' h k r hm
    exact ⟨d, hd, (mem_rhsOf hr v).mp hv⟩
  · rintro ⟨d, hd, hv⟩
    obtain ⟨r, hm, hr⟩ := rhsVars_mem h k d hd
    exact ⟨r, hm, (mem_rhsOf hr v).mpr hv⟩

theorem value_congr (ops : Ops V) {ρ ρ' : String → Option V} {d : Def V}
    (h : ∀ x ∈ d.vars, ρ x = ρ' x) : d.value ops ρ = d.value ops ρ' := by
  cases d with
  | num v => rfl
  | ast e =>
    apply eval_congr
    intro x hx
    simp only [h x hx]

theorem evalParam_eq (ops : Ops V) {c : Dict (Def V)} {ρ : String → Option V} {d : Def V}
    (h : ∀ x ∈ d.vars, ∃ v, ρ x = some v ∧ c.get? x = some (.num v)) :
    evalParam ops c d = d.value ops ρ := by
  cases d with
  | num v => rfl
  | ast e =>
    apply eval_congr
    intro x hx
    obtain ⟨v, h1, h2⟩ := h x hx
    simp [calibScope, h1, h2]

theorem isSol_congr {ops : Ops V} {defs defs' : Dict (Def V)}
    (h : ∀ k, defs.get? k = defs'.get? k) {ρ : String → Option V} (hs : IsSol ops defs ρ) :
    IsSol ops defs' ρ := by
  refine ⟨fun k => ?_, fun k d hk => hs.fix k d (by rw [h]; exact hk)⟩
  rw [hs.dom, ← Dict.get?_isSome_iff, ← Dict.get?_isSome_iff, h]

theorem fillCalib_spec (ops : Ops V) (defs : Dict (Def V)) :
    ∀ (post pre : List String) (c c' : Dict (Def V)),
    (pre ++ post).Nodup → (∀ k ∈ pre ++ post, k ∈ defs.keys) →
    (∀ k, k ∉ pre → c.get? k = defs.get? k) → c.keys = defs.keys →
    (∀ k ∈ pre, ∃ v, c.get? k = some (.num v)) →
    (∀ p k q, post = p ++ k :: q → ∀ d, defs.get? k = some d → ∀ v ∈ d.vars, v ∈ pre ++ p) →
    fillCalib ops post c = .ok c' →
    c'.keys = defs.keys ∧ (∀ k, k ∉ pre ++ post → c'.get? k = defs.get? k) ∧
    (∀ k ∈ pre, c'.get? k = c.get? k) ∧
    (∀ k ∈ pre ++ post, ∃ v, c'.get? k = some (.num v)) ∧
    (∀ k ∈ post, ∀ d, defs.get? k = some d →
      ∃ v, calibVal c' k = some v ∧ d.value ops (calibVal c') = .ok v) := by
  intro post
  induction post with
  | nil =>
    intro pre c c' _ _ h3 h4 h5 _ h
    simp [fillCalib] at h
    subst h
    exact ⟨h4, by simpa using h3, fun _ _ => rfl, by simpa using h5, by simp⟩
  | cons k post ih =>
    intro pre c c' h1 h2 h3 h4 h5 h6 h
    have hkpre : k ∉ pre := by
      intro hk
      have := (List.nodup_append.mp h1).2.2 k hk k (by simp)
      exact this rfl
    obtain ⟨d, hd⟩ := Dict.exists_get?_of_mem (h2 k (by simp))
    have hck : c.get? k = some d := by rw [h3 k hkpre, hd]
    simp only [fillCalib, hck, bind, Except.bind] at h
    cases hv : evalParam ops c d with
    | error e => rw [hv] at h; simp at h
    | ok v =>
      rw [hv] at h
      simp only at h
      have happ : pre ++ k :: post = (pre ++ [k]) ++ post := by simp
      have hkc : k ∈ c.keys := by rw [h4]; exact h2 k (by simp)
      obtain ⟨r1, r2, r3, r4, r5⟩ := ih (pre ++ [k]) (c.set k (.num v)) c'
        (by rw [← happ]; exact h1) (by rw [← happ]; exact h2)
        (by
          intro x hx
          simp at hx
          rw [Dict.get?_set_ne _ (Ne.symm hx.2)]
          exact h3 x hx.1)
        (by rw [Dict.keys_set_of_mem hkc]; exact h4)
        (by
          intro x hx
          rcases List.mem_append.mp hx with hx | hx
          · rw [Dict.get?_set_ne _ (by intro e; subst e; exact hkpre hx)]
            exact h5 x hx
          · simp at hx; subst hx; exact ⟨v, Dict.get?_set_self _ _ _⟩)
        (by
          intro p x q hpq dx hdx w hw
          have := h6 (k :: p) x q (by rw [hpq]; rfl) dx hdx w hw
          simpa using this)
        h
      refine ⟨r1, ?_, ?_, ?_, ?_⟩
      · intro x hx; exact r2 x (by rw [← happ]; exact hx)
      · intro x hx
        rw [r3 x (by simp [hx]), Dict.get?_set_ne _ (by intro e; subst e; exact hkpre hx)]
      · intro x hx; exact r4 x (by rw [← happ]; exact hx)
      · intro x hx dx hdx
        rcases List.mem_cons.mp hx with e | hx
        · subst e
          rw [hd] at hdx; cases hdx
          have hkv : c'.get? x = some (.num v) := by
            rw [r3 x (by simp), Dict.get?_set_self]
          refine ⟨v, by simp [calibVal, hkv], ?_⟩
          rw [← hv]
          symm
          apply evalParam_eq
          intro y hy
          have hypre : y ∈ pre := by
            have := h6 [] x post rfl d hd y hy
            simpa using this
          have hyk : y ≠ x := by intro e; subst e; exact hkpre hypre
          obtain ⟨w, hw⟩ := h5 y hypre
          refine ⟨w, ?_, hw⟩
          have : c'.get? y = some (.num w) := by
            rw [r3 y (by simp [hypre]), Dict.get?_set_ne _ (Ne.symm hyk), hw]
          simp [calibVal, this]
        · exact r5 x hx dx hdx

theorem fillCalib_total (ops : Ops V) (defs : Dict (Def V)) (ρ : String → Option V)
    (hsol : IsSol ops defs ρ) :
    ∀ (post pre : List String) (c : Dict (Def V)),
    (pre ++ post).Nodup → (∀ k ∈ pre ++ post, k ∈ defs.keys) →
    (∀ k, k ∉ pre → c.get? k = defs.get? k) →
    (∀ k ∈ pre, ∃ v, ρ k = some v ∧ c.get? k = some (.num v)) →
    (∀ p k q, post = p ++ k :: q → ∀ d, defs.get? k = some d → ∀ v ∈ d.vars, v ∈ pre ++ p) →
    ∃ c', fillCalib ops post c = .ok c' := by
  intro post
  induction post with
  | nil => intro pre c _ _ _ _ _; exact ⟨c, rfl⟩
  | cons k post ih =>
    intro pre c h1 h2 h3 h5 h6
    have hkpre : k ∉ pre := by
      intro hk
      exact (List.nodup_append.mp h1).2.2 k hk k (by simp) rfl
    obtain ⟨d, hd⟩ := Dict.exists_get?_of_mem (h2 k (by simp))
    have hck : c.get? k = some d := by rw [h3 k hkpre, hd]
    obtain ⟨v, hv, hval⟩ := hsol.fix k d hd
    have he : evalParam ops c d = .ok v := by
      rw [← hval]
      apply evalParam_eq
      intro y hy
      have := h6 [] k post rfl d hd y hy
      exact h5 y (by simpa using this)
    have happ : pre ++ k :: post = (pre ++ [k]) ++ post := by simp
    obtain ⟨c', hc'⟩ := ih (pre ++ [k]) (c.set k (.num v))
      (by rw [← happ]; exact h1) (by rw [← happ]; exact h2)
      (by
        intro x hx
        simp at hx
        rw [Dict.get?_set_ne _ (Ne.symm hx.2)]
        exact h3 x hx.1)
      (by
        intro x hx
        rcases List.mem_append.mp hx with hx | hx
        · rw [Dict.get?_set_ne _ (by intro e; subst e; exact hkpre hx)]
          exact h5 x hx
        · simp at hx; subst hx; exact ⟨v, hv, Dict.get?_set_self _ _ _⟩)
      (by
        intro p x q hpq dx hdx w hw
        have := h6 (k :: p) x q (by rw [hpq]; rfl) dx hdx w hw
        simpa using this)
    exact ⟨c', by simp [fillCalib, hck, he, hc', bind, Except.bind]⟩

theorem sol_unique (ops : Ops V) {defs : Dict (Def V)} (l : List String)
    (hl : ∀ k ∈ defs.keys, k ∈ l)
    (htopo : ∀ pre k post, l = pre ++ k :: post → ∀ d, defs.get? k = some d →
      ∀ v ∈ d.vars, v ∈ pre)
    {ρ ρ' : String → Option V} (h : IsSol ops defs ρ) (h' : IsSol ops defs ρ') : ρ = ρ' := by
  have key : ∀ (pre post : List String), l = pre ++ post →
      (∀ k ∈ pre, k ∈ defs.keys → ρ k = ρ' k) → ∀ k ∈ l, k ∈ defs.keys → ρ k = ρ' k := by
    intro pre post
    induction post generalizing pre with
    | nil => intro e hp k hk; rw [e] at hk; exact hp k (by simpa using hk)
    | cons k post ih =>
      intro e hp
      apply ih (pre ++ [k]) (by rw [e]; simp)
      intro x hx hxk
      rcases List.mem_append.mp hx with hx | hx
      · exact hp x hx hxk
      · simp at hx; subst hx
        obtain ⟨d, hd⟩ := Dict.exists_get?_of_mem hxk
        obtain ⟨v, h1, h2⟩ := h.fix x d hd
        obtain ⟨v', h1', h2'⟩ := h'.fix x d hd
        have : d.value ops ρ = d.value ops ρ' := by
          apply value_congr
          intro y hy
          have hyp := htopo pre x post e d hd y hy
          by_cases hyk : y ∈ defs.keys
          · exact hp y hyp hyk
          · have a := h.dom y
            have b := h'.dom y
            rw [show ρ y = none by
              cases hr : ρ y with
              | none => rfl
              | some z => exact absurd (a.mp (by rw [hr]; rfl)) hyk]
            symm
            cases hr : ρ' y with
            | none => rfl
            | some z => exact absurd (b.mp (by rw [hr]; rfl)) hyk
        rw [h2, h2'] at this
        injection this with this
        rw [h1, h1', this]
  funext k
  by_cases hk : k ∈ defs.keys
  · exact key [] l rfl (by simp) k (hl k hk) hk
  · have a := h.dom k
    have b := h'.dom k
    rw [show ρ k = none by
      cases hr : ρ k with
      | none => rfl
      | some z => exact absurd (a.mp (by rw [hr]; rfl)) hk]
    symm
    cases hr : ρ' k with
    | none => rfl
    | some z => exact absurd (b.mp (by rw [hr]; rfl)) hk

theorem solve_inv {ops : Ops V} {defs c : Dict (Def V)} (h : solveCalibration ops defs = .ok c) :
    ∃ rhs l, rhsVars defs = .ok rhs ∧ orderPrecedence rhs = .ok l ∧ fillCalib ops l defs = .ok c := by
  unfold solveCalibration at h
  simp only [bind, Except.bind] at h
  cases hr : rhsVars defs with
  | error e => rw [hr] at h; simp at h
  | ok rhs =>
    rw [hr] at h
    simp only at h
    cases ho : orderPrecedence rhs with
    | error e => rw [ho] at h; simp at h
    | ok l =>
      rw [ho] at h
      exact ⟨rhs, l, rfl, ho, h⟩

theorem solve_sol {ops : Ops V} {defs c : Dict (Def V)} (hn : defs.keys.Nodup)
    (h : solveCalibration ops defs = .ok c) :
    c.keys = defs.keys ∧ (∀ k ∈ defs.keys, ∃ v, c.get? k = some (.num v)) ∧
    IsSol ops defs (calibVal c) := by
  obtain ⟨rhs, l, hr, ho, hf⟩ := solve_inv h
  have hk := rhsVars_keys hr
  have hnr : rhs.keys.Nodup := by rw [hk]; exact hn
  have hp := orderPrecedence_perm hnr ho
  have ht := orderPrecedence_topo hnr ho
  have hl : ∀ k, k ∈ l ↔ k ∈ defs.keys := by intro k; rw [hp.mem_iff, hk]
  obtain ⟨r1, r2, r3, r4, r5⟩ := fillCalib_spec ops defs l [] defs c
    (by simpa using hp.nodup_iff.mpr hnr) (by intro k; simpa using (hl k).mp)
    (fun _ _ => rfl) rfl (by simp)
    (by
      intro p k q hpq d hd v hv
      have := ht p k q hpq v ((dep_iff hr k v).mpr ⟨d, Dict.mem_of_get? hd, hv⟩)
      simpa using this) hf
  refine ⟨r1, ?_, ?_, ?_⟩
  · intro k hkd; exact r4 k (by simpa using (hl k).mpr hkd)
  · intro k
    by_cases hkd : k ∈ defs.keys
    · obtain ⟨v, hv⟩ := r4 k (by simpa using (hl k).mpr hkd)
      simp [calibVal, hv, hkd]
    · have h1 := r2 k (by simpa using fun h => hkd ((hl k).mp h))
      have h2 : defs.get? k = none := (Dict.get?_eq_none_iff _ _).mpr hkd
      simp [calibVal, h1, h2, hkd]
  · intro k d hd
    exact r5 k ((hl k).mpr (Dict.mem_keys_of_get? hd)) d hd

theorem solve_unique {ops : Ops V} {defs c : Dict (Def V)} (hn : defs.keys.Nodup)
    (h : solveCalibration ops defs = .ok c) {ρ : String → Option V} (hs : IsSol ops defs ρ) :
    ρ = calibVal c := by
  obtain ⟨rhs, l, hr, ho, hf⟩ := solve_inv h
  have hk := rhsVars_keys hr
  have hnr : rhs.keys.Nodup := by rw [hk]; exact hn
  have hp := orderPrecedence_perm hnr ho
  have ht := orderPrecedence_topo hnr ho
  exact sol_unique ops l (fun k hkd => by rw [hp.mem_iff, hk]; exact hkd)
    (fun pre k post e d hd v hv =>
      ht pre k post e v ((dep_iff hr k v).mpr ⟨d, Dict.mem_of_get? hd, hv⟩))
    hs (solve_sol hn h).2.2

theorem solve_total {ops : Ops V} {defs : Dict (Def V)} (hn : defs.keys.Nodup)
    (hloc : ∀ k d, (k, d) ∈ defs → ∃ r, rhsOf d = .ok r)
    (hclosed : ∀ k v, Mentions defs k v → v ∈ defs.keys)
    (hac : ∀ k, ¬ Relation.TransGen (Mentions defs) k k)
    {ρ : String → Option V} (hs : IsSol ops defs ρ) :
    ∃ c, solveCalibration ops defs = .ok c := by
  obtain ⟨rhs, hr⟩ := (rhsVars_ok_iff defs).mpr hloc
  have hk := rhsVars_keys hr
  have hnr : rhs.keys.Nodup := by rw [hk]; exact hn
  have hrel : Dep rhs = Mentions defs := by
    funext k v; exact propext (dep_iff hr k v)
  obtain ⟨l, ho⟩ := orderPrecedence_succeeds hnr
    (by
      intro k r hm v hv
      rw [hk]
      exact hclosed k v ((dep_iff hr k v).mp ⟨r, hm, hv⟩))
    (by rw [hrel]; exact hac)
  have hp := orderPrecedence_perm hnr ho
  have ht := orderPrecedence_topo hnr ho
  have hl : ∀ k, k ∈ l ↔ k ∈ defs.keys := by intro k; rw [hp.mem_iff, hk]
  obtain ⟨c, hc⟩ := fillCalib_total ops defs ρ hs l [] defs
    (by simpa using hp.nodup_iff.mpr hnr) (by intro k; simpa using (hl k).mp)
    (fun _ _ => rfl) (by simp)
    (by
      intro p k q hpq d hd v hv
      have := ht p k q hpq v ((dep_iff hr k v).mpr ⟨d, Dict.mem_of_get? hd, hv⟩)
      simpa using this)
  exact ⟨c, by simp [solveCalibration, hr, ho, hc, bind, Except.bind]⟩

end Pynare
