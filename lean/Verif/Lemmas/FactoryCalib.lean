import Verif.Lemmas.Factory
/-! Helper lemmas: executing the preamble versus solving the calibration; incidence. -/

namespace Pynare

variable {V : Type}

theorem exec_spec {ops : Ops V} {ρ ρ' : String → Option V} {as : List (String × Expr V)}
    (h : Exec ops ρ as ρ') :
    (∀ y, (∀ e, (y, e) ∉ as) → ρ' y = ρ y) ∧
    ∀ pre x e post, as = pre ++ (x, e) :: post → (∀ e', (x, e') ∉ post) →
      (∀ y ∈ e.vars, y ≠ x ∧ ∀ e', (y, e') ∉ post) → ∃ v, ρ' x = some v ∧ Evals ops ρ' e v := by
  induction h with
  | nil => exact ⟨fun _ _ => rfl, fun pre x e post h => by simp at h⟩
  | @cons ρ ρ' x e v as he hx ih =>
    obtain ⟨a1, a2⟩ := ih
    refine ⟨?_, ?_⟩
    · intro y hy
      rw [a1 y (fun e' hm => hy e' (List.mem_cons_of_mem _ hm))]
      refine if_neg ?_
      rintro rfl; exact hy e (by simp)
    · intro pre z f post hz hl hv
      cases pre with
      | nil =>
        simp at hz; obtain ⟨⟨rfl, rfl⟩, rfl⟩ := hz
        refine ⟨v, ?_, ?_⟩
        · rw [a1 x hl]; simp
        · refine evals_congr he ?_
          intro y hy
          obtain ⟨h1, h2⟩ := hv y hy
          rw [a1 y h2]
          exact (if_neg (Ne.symm h1)).symm
      | cons b pre =>
        simp at hz; obtain ⟨rfl, rfl⟩ := hz
        exact a2 pre z f post rfl hl hv

theorem evals_no_pvars {ops : Ops V} {ρ : String → Option V} {e : Expr V} {v : V}
    (h : Evals ops ρ e v) : e.pvars = [] := by
  induction h <;> simp_all [Expr.pvars]

theorem locate_ok (e : Expr V) (hc : e.hasCmp = false) (hp : e.pvars = []) :
    ∀ s, ∃ t, locate e s = .ok t := by
  induction e with
  | num v => intro s; exact ⟨_, rfl⟩
  | var x => intro s; exact ⟨_, rfl⟩
  | pvar x o => simp [Expr.pvars] at hp
  | un op e ih => exact ih hc hp
  | fn f e ih => exact ih hc hp
  | cmp op l r _ _ => simp [Expr.hasCmp] at hc
  | bin op l r ihl ihr =>
    intro s
    simp only [Expr.hasCmp, Bool.or_eq_false_iff] at hc
    simp only [Expr.pvars, List.append_eq_nil_iff] at hp
    obtain ⟨t, h1⟩ := ihl hc.1 hp.1 s
    obtain ⟨u, h2⟩ := ihr hc.2 hp.2 t
    exact ⟨u, by simp [locate, h1, h2, bind, Except.bind]⟩

/-- how a definition reaches the calibration -/
def toDef : Expr V → Def V
  | .num v => .num v
  | e => .ast e

theorem toDef_vars (e : Expr V) : (toDef e).vars = e.vars := by
  cases e <;> rfl

theorem toDef_value (ops : Ops V) (ρ : String → Option V) (e : Expr V) (v : V) :
    (toDef e).value ops ρ = .ok v ↔ Evals ops ρ e v := by
  have : (toDef e).value ops ρ = eval ops (fun x => match ρ x with
    | some v => .ok v
    | none => .error .syntaxError) e := by cases e <;> rfl
  rw [this]
  refine eval_iff_evals ops ?_ e v
  intro x v
  cases ρ x <;> simp

theorem toDef_rhs (e : Expr V) (hc : e.hasCmp = false) (hp : e.pvars = []) :
    ∃ r, rhsOf (toDef e) = .ok r := by
  have := locate_ok e hc hp []
  cases e <;> exact this

theorem outlineDefs_ok (ps : Dict (Option (Expr V))) (h : ∀ x d, (x, d) ∈ ps → d ≠ none) :
    ∃ ds, outlineDefs ps = .ok ds ∧ ds.keys = ps.keys ∧
      ∀ x d, (x, d) ∈ ds → ∃ e, (x, some e) ∈ ps ∧ d = toDef e := by
  induction ps with
  | nil => exact ⟨[], rfl, rfl, by simp⟩
  | cons p ps ih =>
    obtain ⟨x, d⟩ := p
    cases d with
    | none => exact absurd rfl (h x none (by simp))
    | some e =>
      obtain ⟨ds, h1, h2, h3⟩ := ih (fun y d hm => h y d (List.mem_cons_of_mem _ hm))
      refine ⟨(x, toDef e) :: ds, ?_, ?_, ?_⟩
      · simp only [outlineDefs, h1, bind, Except.bind]
        cases e <;> rfl
      · simp only [Dict.keys, List.map_cons] at h2 ⊢
        rw [h2]
      · intro y d hm
        rcases List.mem_cons.mp hm with hm | hm
        · simp at hm; obtain ⟨rfl, rfl⟩ := hm; exact ⟨e, by simp, rfl⟩
        · obtain ⟨e', a, b⟩ := h3 y d hm
          exact ⟨e', List.mem_cons_of_mem _ a, b⟩

/-- the last assignment of an assigned name -/
theorem last_assign {as : List (String × Expr V)} {x : String} (h : ∃ e, (x, e) ∈ as) :
    ∃ pre e post, as = pre ++ (x, e) :: post ∧ ∀ e', (x, e') ∉ post := by
  induction as with
  | nil => obtain ⟨e, h⟩ := h; simp at h
  | cons a as ih =>
    by_cases h' : ∃ e, (x, e) ∈ as
    · obtain ⟨pre, e, post, rfl, hl⟩ := ih h'
      exact ⟨a :: pre, e, post, rfl, hl⟩
    · obtain ⟨e, h⟩ := h
      rcases List.mem_cons.mp h with h | h
      · subst h
        exact ⟨[], e, as, rfl, fun e' hm => h' ⟨e', hm⟩⟩
      · exact absurd ⟨e, h⟩ h'

theorem transGen_lt {r : String → String → Prop} {f : String → Nat} (h : ∀ a b, r a b → f a < f b)
    {a b : String} (ht : Relation.TransGen r a b) : f a < f b := by
  induction ht with
  | single h1 => exact h _ _ h1
  | tail _ h1 ih => exact Nat.lt_trans ih (h _ _ h1)

/-- rank of a name: how many assignments follow its last one -/
theorem rank_lt {pre post : List (String × Expr V)} {x : String} {e : Expr V}
    (hx : ∀ e', (x, e') ∉ post) {y : String} (hyx : y ≠ x) (hy : ∀ e', (y, e') ∉ post) :
    ((pre ++ (x, e) :: post).reverse.map Prod.fst).idxOf x <
      ((pre ++ (x, e) :: post).reverse.map Prod.fst).idxOf y := by
  have m : ∀ z : String, (∀ e', (z, e') ∉ post) → z ∉ post.reverse.map Prod.fst := by
    intro z hz hm
    obtain ⟨⟨a, b⟩, h1, rfl⟩ := List.mem_map.mp hm
    exact hz b (List.mem_reverse.mp h1)
  simp only [List.reverse_append, List.reverse_cons, List.append_assoc, List.map_append]
  rw [List.idxOf_append (a := x), List.idxOf_append (a := y), if_neg (m x hx), if_neg (m y hy)]
  simp [Ne.symm hyx]

/-! ### incidence of a list of equations -/

theorem countAdd_spec (endog : List String) (d : Dict (List Int)) (x : String) (p : Int) :
    (∀ y, y ∈ (countAdd endog d x p).keys → y ∈ d.keys ∨ y ∈ endog) ∧
    (d.keys.Nodup → (countAdd endog d x p).keys.Nodup) ∧
    ∀ y q, Rec (countAdd endog d x p) y q ↔ Rec d y q ∨ (y ∈ endog ∧ y = x ∧ q = p) := by
  unfold countAdd
  by_cases hx : x ∈ endog
  · simp only [hx, if_true]
    refine ⟨?_, fun h => Dict.nodup_keys_set h _ _, ?_⟩
    · intro y hy
      rw [← Dict.get?_isSome_iff, Dict.get?_set] at hy
      by_cases e : x = y
      · subst e; exact Or.inr hx
      · simp only [e, if_false] at hy
        exact Or.inl ((Dict.get?_isSome_iff _ _).mp hy)
    · intro y q
      unfold Rec
      simp only [Dict.get?_set]
      by_cases e : x = y
      · subst e
        cases hd : d.get? x with
        | none => simp [mem_intAdd, hx]
        | some s => simp [mem_intAdd, hx]
      · simp [e, Ne.symm e]
  · simp only [hx, if_false]
    refine ⟨fun y h => Or.inl h, fun h => h, fun y q => ⟨Or.inl, ?_⟩⟩
    rintro (h | ⟨h, rfl, _⟩)
    · exact h
    · exact absurd h hx

theorem countPeriods_spec (endog : List String) (e : Expr V) : ∀ {d d' : Dict (List Int)},
    countPeriods endog d e = .ok d' →
    (∀ y, y ∈ d'.keys → y ∈ d.keys ∨ y ∈ endog) ∧ (d.keys.Nodup → d'.keys.Nodup) ∧
    ∀ y q, Rec d' y q ↔ Rec d y q ∨ (y ∈ endog ∧ OccursAt y q e) := by
  induction e with
  | num v =>
    intro d d' h; simp [countPeriods] at h; subst h
    refine ⟨fun y h => Or.inl h, fun h => h, ?_⟩
    simp [OccursAt, Expr.vars, Expr.pvars]
  | var x =>
    intro d d' h; simp [countPeriods] at h; subst h
    obtain ⟨h1, h2, h3⟩ := countAdd_spec endog d x 0
    refine ⟨h1, h2, fun y q => (h3 y q).trans ?_⟩
    simp only [OccursAt, Expr.vars, Expr.pvars, List.mem_singleton, List.not_mem_nil, or_false]
    constructor
    · rintro (h | ⟨a, b, c⟩)
      · exact Or.inl h
      · exact Or.inr ⟨a, c, b⟩
    · rintro (h | ⟨a, b, c⟩)
      · exact Or.inl h
      · exact Or.inr ⟨a, c, b⟩
  | pvar x o =>
    intro d d' h; simp [countPeriods] at h; subst h
    obtain ⟨h1, h2, h3⟩ := countAdd_spec endog d x o
    refine ⟨h1, h2, fun y q => (h3 y q).trans ?_⟩
    simp [OccursAt, Expr.vars, Expr.pvars]
  | un op e ih => intro d d' h; exact ih h
  | fn f e ih => intro d d' h; exact ih h
  | cmp op l r _ _ => intro d d' h; simp [countPeriods] at h
  | bin op l r ihl ihr =>
    intro d d' h
    simp only [countPeriods, Except.bind_ok_iff] at h
    obtain ⟨d1, h1, h2⟩ := h
    obtain ⟨a1, a2, a3⟩ := ihl h1
    obtain ⟨b1, b2, b3⟩ := ihr h2
    refine ⟨?_, fun h => b2 (a2 h), fun y q => ?_⟩
    · intro y hy
      rcases b1 y hy with h | h
      · exact a1 y h
      · exact Or.inr h
    rw [b3, a3]
    simp only [OccursAt, Expr.vars, Expr.pvars, List.mem_append]
    constructor
    · rintro ((h | ⟨a, b⟩) | ⟨a, b⟩)
      · exact Or.inl h
      · refine Or.inr ⟨a, ?_⟩
        rcases b with ⟨b, c⟩ | b
        · exact Or.inl ⟨b, Or.inl c⟩
        · exact Or.inr (Or.inl b)
      · refine Or.inr ⟨a, ?_⟩
        rcases b with ⟨b, c⟩ | b
        · exact Or.inl ⟨b, Or.inr c⟩
        · exact Or.inr (Or.inr b)
    · rintro (h | ⟨a, ⟨b, c | c⟩ | c | c⟩)
      · exact Or.inl (Or.inl h)
      · exact Or.inl (Or.inr ⟨a, Or.inl ⟨b, c⟩⟩)
      · exact Or.inr ⟨a, Or.inl ⟨b, c⟩⟩
      · exact Or.inl (Or.inr ⟨a, Or.inr c⟩)
      · exact Or.inr ⟨a, Or.inr c⟩

theorem countPeriods_ok (endog : List String) (e : Expr V) (hc : e.hasCmp = false) :
    ∀ d, ∃ d', countPeriods endog d e = .ok d' := by
  induction e with
  | num v => intro d; exact ⟨_, rfl⟩
  | var x => intro d; exact ⟨_, rfl⟩
  | pvar x o => intro d; exact ⟨_, rfl⟩
  | un op e ih => exact ih hc
  | fn f e ih => exact ih hc
  | cmp op l r _ _ => simp [Expr.hasCmp] at hc
  | bin op l r ihl ihr =>
    intro d
    simp only [Expr.hasCmp, Bool.or_eq_false_iff] at hc
    obtain ⟨t, h1⟩ := ihl hc.1 d
    obtain ⟨u, h2⟩ := ihr hc.2 t
    exact ⟨u, by simp [countPeriods, h1, h2, bind, Except.bind]⟩

theorem mem_intUnion (t : List Int) : ∀ (s : List Int) (x : Int),
    x ∈ intUnion s t ↔ x ∈ s ∨ x ∈ t := by
  induction t with
  | nil => intro s x; simp [intUnion]
  | cons a t ih =>
    intro s x
    have := ih (intAdd s a) x
    simp only [intUnion, List.foldl_cons] at this ⊢
    rw [this, mem_intAdd, List.mem_cons]
    exact or_assoc

theorem mergeCounts_spec (cs : Dict (List Int)) : ∀ (d : Dict (List Int)),
    (∀ y ∈ cs.keys, y ∈ d.keys) →
    ∃ d', mergeCounts d cs = .ok d' ∧ d'.keys = d.keys ∧
      ∀ y q, Rec d' y q ↔ Rec d y q ∨ ∃ ps, (y, ps) ∈ cs ∧ q ∈ ps := by
  induction cs with
  | nil => intro d _; exact ⟨d, rfl, rfl, by simp⟩
  | cons c cs ih =>
    obtain ⟨x, ps⟩ := c
    intro d hk
    have hx : x ∈ d.keys := hk x (by simp [Dict.keys])
    obtain ⟨s, hs⟩ := Dict.exists_get?_of_mem hx
    have hkeys := Dict.keys_set_of_mem hx (intUnion s ps)
    obtain ⟨d', h1, h2, h3⟩ := ih (d.set x (intUnion s ps)) (by
      intro y hy; rw [hkeys]; exact hk y (by simp only [Dict.keys, List.map_cons, List.mem_cons]; exact Or.inr hy))
    refine ⟨d', by simp [mergeCounts, hs, h1], h2.trans hkeys, ?_⟩
    intro y q
    rw [h3]
    unfold Rec
    simp only [Dict.get?_set, List.mem_cons, Prod.mk.injEq]
    by_cases e : x = y
    · subst e
      simp only [if_true, hs, Option.some.injEq, exists_eq_left', mem_intUnion]
      constructor
      · rintro ((h | h) | ⟨ps', h, h'⟩)
        · exact Or.inl h
        · exact Or.inr ⟨ps, Or.inl ⟨trivial, rfl⟩, h⟩
        · exact Or.inr ⟨ps', Or.inr h, h'⟩
      · rintro (h | ⟨ps', ⟨_, rfl⟩ | h, h'⟩)
        · exact Or.inl (Or.inl h)
        · exact Or.inl (Or.inr h')
        · exact Or.inr ⟨ps', h, h'⟩
    · simp only [e, if_false, Ne.symm e, false_and, false_or]

theorem readLoop_spec (endog : List String) (es : List (Expr V)) :
    ∀ (d : Dict (List Int)), (∀ e ∈ es, e.hasCmp = false) → (∀ y ∈ endog, y ∈ d.keys) →
    ∃ d', readLoop endog d es = .ok d' ∧ d'.keys = d.keys ∧
      ∀ y q, Rec d' y q ↔ Rec d y q ∨ (y ∈ endog ∧ ∃ e ∈ es, OccursAt y q e) := by
  induction es with
  | nil => intro d _ _; exact ⟨d, rfl, rfl, by simp⟩
  | cons e es ih =>
    intro d hc hk
    obtain ⟨c, h1⟩ := countPeriods_ok endog e (hc e (by simp)) []
    obtain ⟨a1, a2, a3⟩ := countPeriods_spec endog e h1
    have hcn := a2 (by simp [Dict.keys])
    obtain ⟨d1, h2, h3, h4⟩ := mergeCounts_spec c d (by
      intro y hy
      rcases a1 y hy with h | h
      · simp [Dict.keys] at h
      · exact hk y h)
    obtain ⟨d', h5, h6, h7⟩ := ih d1 (fun e he => hc e (List.mem_cons_of_mem _ he))
      (fun y hy => by rw [h3]; exact hk y hy)
    refine ⟨d', by simp [readLoop, h1, h2, h5, bind, Except.bind], h6.trans h3, ?_⟩
    intro y q
    rw [h7, h4]
    have hrec : (∃ ps, (y, ps) ∈ c ∧ q ∈ ps) ↔ (y ∈ endog ∧ OccursAt y q e) := by
      have := a3 y q
      have hn : ¬ Rec ([] : Dict (List Int)) y q := by
        rintro ⟨s, h, _⟩; simp [Dict.get?] at h
      rw [or_iff_right hn] at this
      rw [← this]
      constructor
      · rintro ⟨ps, h, h'⟩; exact ⟨ps, Dict.get?_of_mem hcn h, h'⟩
      · rintro ⟨ps, h, h'⟩; exact ⟨ps, Dict.mem_of_get? h, h'⟩
    rw [hrec]
    simp only [List.mem_cons, exists_eq_or_imp]
    constructor
    · rintro ((h | ⟨a, b⟩) | ⟨a, b⟩)
      · exact Or.inl h
      · exact Or.inr ⟨a, Or.inl b⟩
      · exact Or.inr ⟨a, Or.inr b⟩
    · rintro (h | ⟨a, b | b⟩)
      · exact Or.inl (Or.inl h)
      · exact Or.inl (Or.inr ⟨a, b⟩)
      · exact Or.inr ⟨a, b⟩

theorem fromKeys_aux (names : List String) : ∀ (d : Dict (List Int)), d.keys.Nodup →
    (∀ y q, ¬ Rec d y q) →
    (names.foldl (fun d x => d.set x []) d).keys.Nodup ∧
    (∀ y, y ∈ (names.foldl (fun d x => d.set x []) d).keys ↔ y ∈ d.keys ∨ y ∈ names) ∧
    ∀ y q, ¬ Rec (names.foldl (fun d x => d.set x []) d) y q := by
  induction names with
  | nil => intro d hn hr; exact ⟨hn, by simp, hr⟩
  | cons x xs ih =>
    intro d hn hr
    obtain ⟨a, b, c⟩ := ih (d.set x []) (Dict.nodup_keys_set hn _ _) (by
      rintro y q ⟨s, h, hq⟩
      rw [Dict.get?_set] at h
      by_cases e : x = y
      · simp [e] at h; subst h; simp at hq
      · simp [e] at h; exact hr y q ⟨s, h, hq⟩)
    refine ⟨a, ?_, c⟩
    intro y
    show y ∈ (xs.foldl (fun d x => d.set x []) (d.set x [])).keys ↔ _
    rw [b, ← Dict.get?_isSome_iff, ← Dict.get?_isSome_iff, Dict.get?_set, List.mem_cons]
    by_cases e : x = y
    · subst e; simp
    · simp [e, Ne.symm e]

theorem readLeadLags_spec (endog : List String) (es : List (Expr V))
    (hc : ∀ e ∈ es, e.hasCmp = false) :
    ∃ d, readLeadLags endog es = .ok d ∧ (∀ y, y ∈ d.keys ↔ y ∈ endog) ∧
      ∀ y q, Rec d y q ↔ (y ∈ endog ∧ ∃ e ∈ es, OccursAt y q e) := by
  obtain ⟨a, b, c⟩ := fromKeys_aux endog [] (by simp [Dict.keys]) (by
    rintro y q ⟨s, h, _⟩; simp [Dict.get?] at h)
  obtain ⟨d, h1, h2, h3⟩ := readLoop_spec endog es (fromKeys endog) hc (by
    intro y hy; exact (b y).mpr (Or.inr hy))
  refine ⟨d, h1, ?_, ?_⟩
  · intro y; rw [h2]; refine (b y).trans ?_; simp [Dict.keys]
  · intro y q; rw [h3]; exact or_iff_right (c y q)

end Pynare
