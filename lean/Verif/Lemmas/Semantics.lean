import Verif.Model.Semantics
import Verif.Spec.Semantics
import Verif.Lemmas.Dict
/-! Helper lemmas about the semantic check. -/

namespace Pynare

variable {V : Type}

theorem Except.bind_ok_iff {α β : Type} {x : Except Err α} {f : α → Except Err β} {b : β} :
    (x >>= f) = .ok b ↔ ∃ a, x = .ok a ∧ f a = .ok b := by
  cases x with
  | error e => simp [bind, Except.bind]
  | ok a => simp [bind, Except.bind]

/-- every element satisfies `P` relative to the elements before it -/
def EachAfter {α : Type} (P : List α → α → Prop) (done l : List α) : Prop :=
  ∀ pre a post, l = pre ++ a :: post → P (done ++ pre) a

theorem eachAfter_nil {α : Type} {P : List α → α → Prop} {done : List α} : EachAfter P done [] := by
  intro pre a post h; simp at h

theorem eachAfter_cons {α : Type} {P : List α → α → Prop} {done : List α} {a : α} {l : List α} :
    EachAfter P done (a :: l) ↔ P done a ∧ EachAfter P (done ++ [a]) l := by
  constructor
  · intro h
    refine ⟨by simpa using h [] a l rfl, ?_⟩
    intro pre b post e
    have := h (a :: pre) b post (by simp [e])
    simpa using this
  · rintro ⟨h1, h2⟩ pre b post e
    cases pre with
    | nil => simp at e; obtain ⟨rfl, rfl⟩ := e; simpa using h1
    | cons c pre =>
      simp at e; obtain ⟨rfl, rfl⟩ := e
      simpa using h2 pre b post rfl

/-- what a symbol table contains: the type words, the typed names `D`, the untyped names `A` -/
structure TabInv (g : SymTab) (D : List (String × String)) (A : List String) : Prop where
  mem : ∀ x, (∃ s, g.get? x = some s) ↔ TypeWord x ∨ x ∈ D.map Prod.fst ∨ x ∈ A
  ty : ∀ x k, g.get? x = some (some k) ↔ (x, k) ∈ D

theorem typeWord_iff (x : String) : TypeWord x ↔ x ∈ builtinWords := by
  simp [TypeWord, builtinWords]

theorem freshTab_get? (x : String) (s : Option String) :
    freshTab.get? x = some s ↔ TypeWord x ∧ s = none := by
  rw [typeWord_iff]
  have : ∀ (l : List String), Dict.get? (l.map fun w => (w, (none : Option String))) x = some s ↔
      x ∈ l ∧ s = none := by
    intro l
    induction l with
    | nil => simp [Dict.get?]
    | cons w l ih =>
      simp only [List.map_cons, Dict.get?]
      by_cases h : w = x
      · subst h; simp [eq_comm]
      · simp [h, ih, Ne.symm h]
  exact this _

theorem freshTab_inv : TabInv freshTab [] [] := by
  constructor
  · intro x
    constructor
    · rintro ⟨s, hs⟩; exact Or.inl ((freshTab_get? x s).mp hs).1
    · rintro (h | h | h)
      · exact ⟨none, (freshTab_get? x none).mpr ⟨h, rfl⟩⟩
      · simp at h
      · simp at h
  · intro x k
    rw [freshTab_get?]; simp

theorem symLookup_one (g : SymTab) (x : String) : symLookup [g] x = g.get? x := by
  simp only [symLookup]
  cases g.get? x <;> rfl

theorem symLookup_two (m g : SymTab) (x : String) :
    symLookup [m, g] x = match m.get? x with
      | some s => some s
      | none => g.get? x := by
  rw [← symLookup_one g]
  simp only [symLookup]
  cases m.get? x <;> rfl

theorem uses_congr {p q p' q' : String → Prop} (h1 : ∀ x, p x ↔ p' x) (h2 : ∀ x, q x ↔ q' x)
    (e : Expr V) : Uses p q e ↔ Uses p' q' e := by
  constructor
  · rintro ⟨a, b, c⟩
    exact ⟨a, fun x hx => (h1 x).mp (b x hx), fun x o hx => (h2 x).mp (c x o hx)⟩
  · rintro ⟨a, b, c⟩
    exact ⟨a, fun x hx => (h1 x).mpr (b x hx), fun x o hx => (h2 x).mpr (c x o hx)⟩

theorem semExpr_iff (sc : List SymTab) (e : Expr V) : semExpr sc e = .ok () ↔
    Uses (fun x => ∃ s, symLookup sc x = some s)
      (fun x => ∃ k, symLookup sc x = some (some k) ∧ k ≠ "parameters") e := by
  induction e with
  | num v =>
    exact ⟨fun _ => ⟨rfl, by simp [Expr.vars], by simp [Expr.pvars]⟩, fun _ => rfl⟩
  | var x =>
    constructor
    · intro h
      refine ⟨rfl, ?_, by simp [Expr.pvars]⟩
      intro y hy
      simp [Expr.vars] at hy; subst hy
      simp only [semExpr] at h
      cases hs : symLookup sc y with
      | none => rw [hs] at h; simp at h
      | some s => exact ⟨s, rfl⟩
    · intro h
      obtain ⟨s, hs⟩ := h.vars x (by simp [Expr.vars])
      simp [semExpr, hs]
  | pvar x o =>
    constructor
    · intro h
      refine ⟨rfl, by simp [Expr.vars], ?_⟩
      intro y p hy
      simp [Expr.pvars] at hy; obtain ⟨rfl, rfl⟩ := hy
      simp only [semExpr] at h
      cases hs : symLookup sc y with
      | none => rw [hs] at h; simp at h
      | some s =>
        rw [hs] at h
        cases s with
        | none => simp [stypeName, bind, Except.bind] at h
        | some k =>
          refine ⟨k, rfl, ?_⟩
          rintro rfl
          simp [stypeName, bind, Except.bind] at h
    · intro h
      obtain ⟨k, hs, hk⟩ := h.pvars x o (by simp [Expr.pvars])
      simp [semExpr, hs, stypeName, bind, Except.bind, hk]
  | un op e ih =>
    simp only [semExpr, ih]
    exact ⟨fun h => ⟨h.1, h.2, h.3⟩, fun h => ⟨h.1, h.2, h.3⟩⟩
  | fn f e ih =>
    simp only [semExpr, ih]
    exact ⟨fun h => ⟨h.1, h.2, h.3⟩, fun h => ⟨h.1, h.2, h.3⟩⟩
  | cmp op l r _ _ =>
    constructor
    · intro h; simp [semExpr] at h
    · intro h; exact absurd h.noCmp (by simp [Expr.hasCmp])
  | bin op l r ihl ihr =>
    simp only [semExpr, Except.bind_ok_iff]
    constructor
    · rintro ⟨_, h1, h2⟩
      have h1 := ihl.mp h1
      have h2 := ihr.mp h2
      refine ⟨by simp [Expr.hasCmp, h1.noCmp, h2.noCmp], ?_, ?_⟩
      · intro x hx
        simp only [Expr.vars, List.mem_append] at hx
        exact hx.elim (h1.vars x) (h2.vars x)
      · intro x o hx
        simp only [Expr.pvars, List.mem_append] at hx
        exact hx.elim (h1.pvars x o) (h2.pvars x o)
    · intro h
      have hc : l.hasCmp = false ∧ r.hasCmp = false := by
        have := h.noCmp; simpa [Expr.hasCmp] using this
      refine ⟨(), ihl.mpr ⟨hc.1, ?_, ?_⟩, ihr.mpr ⟨hc.2, ?_, ?_⟩⟩
      · intro x hx; exact h.vars x (by simp [Expr.vars, hx])
      · intro x o hx; exact h.pvars x o (by simp [Expr.pvars, hx])
      · intro x hx; exact h.vars x (by simp [Expr.vars, hx])
      · intro x o hx; exact h.pvars x o (by simp [Expr.pvars, hx])

/-! ### declarations -/

theorem varTypes_words {k : String} (h : k ∈ varTypes) : TypeWord k := by
  simp [varTypes] at h
  simp [TypeWord]
  rcases h with h | h | h | h | h | h | h <;> simp [h]

theorem TabInv.none_iff {g : SymTab} {D A} (h : TabInv g D A) (x : String) :
    g.get? x = none ↔ ¬ TypeWord x ∧ x ∉ D.map Prod.fst ∧ x ∉ A := by
  constructor
  · intro hx
    have : ¬ (∃ s, g.get? x = some s) := by rintro ⟨s, hs⟩; rw [hx] at hs; cases hs
    rw [h.mem x, not_or, not_or] at this
    exact this
  · intro hx
    cases hs : g.get? x with
    | none => rfl
    | some s =>
      have := (h.mem x).mp ⟨s, hs⟩
      rcases this with a | a | a
      · exact absurd a hx.1
      · exact absurd a hx.2.1
      · exact absurd a hx.2.2

theorem TabInv.set_typed {g : SymTab} {D A} (h : TabInv g D A) {x k : String}
    (hx : g.get? x = none) : TabInv (g.set x (some k)) (D ++ [(x, k)]) A := by
  have hn := (h.none_iff x).mp hx
  constructor
  · intro y
    rw [Dict.get?_set]
    by_cases e : x = y
    · subst e; simp
    · rw [if_neg e, h.mem y]
      simp [Ne.symm e]
  · intro y k'
    rw [Dict.get?_set]
    by_cases e : x = y
    · subst e
      rw [if_pos rfl]
      have : (x, k') ∉ D := fun hm => hn.2.1 (List.mem_map.mpr ⟨_, hm, rfl⟩)
      simp [this, eq_comm]
    · rw [if_neg e, h.ty y k']
      simp [Ne.symm e]

theorem TabInv.set_untyped {g : SymTab} {D A} (h : TabInv g D A) {x : String}
    (hx : g.get? x = none) : TabInv (g.set x none) D (A ++ [x]) := by
  have hn := (h.none_iff x).mp hx
  constructor
  · intro y
    rw [Dict.get?_set]
    by_cases e : x = y
    · subst e; simp
    · rw [if_neg e, h.mem y]
      simp [Ne.symm e]
  · intro y k'
    rw [Dict.get?_set]
    by_cases e : x = y
    · subst e
      rw [if_pos rfl]
      have : (x, k') ∉ D := fun hm => hn.2.1 (List.mem_map.mpr ⟨_, hm, rfl⟩)
      simp [this]
    · rw [if_neg e, h.ty y k']

theorem semDecls_inv {ds : List (String × String)} (hk : ∀ p ∈ ds, p.2 ∈ varTypes) :
    ∀ {g g' : SymTab} {D}, TabInv g D [] → semDecls g ds = .ok g' → TabInv g' (D ++ ds) [] := by
  induction ds with
  | nil => intro g g' D hi h; simp [semDecls] at h; subst h; simpa using hi
  | cons p ds ih =>
    obtain ⟨x, k⟩ := p
    intro g g' D hi h
    simp only [semDecls, Except.bind_ok_iff] at h
    obtain ⟨g1, h1, h2⟩ := h
    simp only [semDecl, symLookup_one] at h1
    cases hx : g.get? x with
    | some s => rw [hx] at h1; simp at h1
    | none =>
      rw [hx] at h1
      have hw := varTypes_words (hk (x, k) (List.mem_cons_self ..))
      obtain ⟨s, hs⟩ := (hi.mem k).mpr (Or.inl hw)
      rw [hs] at h1
      simp at h1
      subst h1
      have := ih (fun p hp => hk p (List.mem_cons_of_mem _ hp)) (hi.set_typed (k := k) hx) h2
      simpa using this

theorem semDecls_ok {ds : List (String × String)} (hk : ∀ p ∈ ds, p.2 ∈ varTypes) :
    ∀ {g : SymTab} {D}, TabInv g D [] → ((∃ g', semDecls g ds = .ok g') ↔
      (ds.map Prod.fst).Nodup ∧ ∀ x ∈ ds.map Prod.fst, ¬ TypeWord x ∧ x ∉ D.map Prod.fst) := by
  induction ds with
  | nil => intro g D hi; simp [semDecls]
  | cons p ds ih =>
    obtain ⟨x, k⟩ := p
    intro g D hi
    have hk' := fun p hp => hk p (List.mem_cons_of_mem _ hp)
    have hw := varTypes_words (hk (x, k) (List.mem_cons_self ..))
    obtain ⟨s, hs⟩ := (hi.mem k).mpr (Or.inl hw)
    cases hx : g.get? x with
    | some s =>
      constructor
      · rintro ⟨g', h⟩
        simp only [semDecls, Except.bind_ok_iff, semDecl, symLookup_one, hx] at h
        obtain ⟨_, h, _⟩ := h
        simp at h
      · rintro ⟨_, h⟩
        have := h x (by simp)
        rw [(hi.none_iff x).mpr ⟨this.1, this.2, by simp⟩] at hx
        cases hx
    | none =>
      have hn := (hi.none_iff x).mp hx
      have key := ih hk' (hi.set_typed (k := k) hx)
      have e : (∃ g', semDecls g ((x, k) :: ds) = .ok g') ↔
          ∃ g', semDecls (g.set x (some k)) ds = .ok g' := by
        simp [semDecls, semDecl, symLookup_one, hx, hs, bind, Except.bind]
      rw [e, key]
      simp only [List.map_cons, List.nodup_cons, List.map_append, List.map_nil, List.mem_append,
        List.mem_cons, List.not_mem_nil, or_false, not_or]
      constructor
      · rintro ⟨h1, h2⟩
        refine ⟨⟨fun hm => (h2 x hm).2.2 rfl, h1⟩, ?_⟩
        rintro y (rfl | hy)
        · exact ⟨hn.1, hn.2.1⟩
        · exact ⟨(h2 y hy).1, (h2 y hy).2.1⟩
      · rintro ⟨⟨h0, h1⟩, h2⟩
        refine ⟨h1, fun y hy => ⟨(h2 y (Or.inr hy)).1, (h2 y (Or.inr hy)).2, ?_⟩⟩
        rintro rfl; exact h0 hy

/-! ### assignments -/

/-- the untyped names that a list of assignments leaves in the table -/
def untyped (D : List (String × String)) (as : List (String × Expr V)) : List String :=
  (as.map Prod.fst).filter fun x => x ∉ D.map Prod.fst

theorem untyped_append (D : List (String × String)) (as bs : List (String × Expr V)) :
    untyped D (as ++ bs) = untyped D as ++ untyped D bs := by
  simp [untyped]

theorem mem_untyped {D : List (String × String)} {as : List (String × Expr V)} {x : String} :
    x ∈ untyped D as ↔ x ∉ D.map Prod.fst ∧ ∃ e, (x, e) ∈ as := by
  simp only [untyped, List.mem_filter, List.mem_map, decide_eq_true_eq]
  constructor
  · rintro ⟨⟨⟨y, e⟩, h, rfl⟩, h2⟩; exact ⟨h2, e, h⟩
  · rintro ⟨h1, e, h⟩; exact ⟨⟨(x, e), h, rfl⟩, h1⟩

theorem TabInv.eq_of_mem {g : SymTab} {D A} (hi : TabInv g D A) {x k k' : String}
    (h : (x, k) ∈ D) (h' : (x, k') ∈ D) : k = k' := by
  have a := (hi.ty x k).mpr h
  have b := (hi.ty x k').mpr h'
  rw [a] at b; simpa using b

/-- condition on one assignment, given the declarations and the assignments before it -/
def AssignOk (D : List (String × String)) (pre : List (String × Expr V)) (a : String × Expr V) :
    Prop :=
  ((a.1, "parameters") ∈ D ∨ (a.1 ∉ D.map Prod.fst ∧ ¬ TypeWord a.1 ∧ ∀ e', (a.1, e') ∉ pre)) ∧
  Uses (fun y => y ∈ D.map Prod.fst ∨ TypeWord y ∨ y = a.1 ∨ ∃ e', (y, e') ∈ pre)
    (fun y => ∃ k, (y, k) ∈ D ∧ k ≠ "parameters") a.2

theorem TabInv.uses_one {g : SymTab} {D A} (hi : TabInv g D A) (e : Expr V) :
    semExpr [g] e = .ok () ↔ Uses (fun y => TypeWord y ∨ y ∈ D.map Prod.fst ∨ y ∈ A)
      (fun y => ∃ k, (y, k) ∈ D ∧ k ≠ "parameters") e := by
  rw [semExpr_iff]
  refine uses_congr ?_ ?_ e
  · intro x; rw [symLookup_one]; exact hi.mem x
  · intro x; simp only [symLookup_one, hi.ty]

theorem semAssign_iff {g g' : SymTab} {D} {pre : List (String × Expr V)}
    (hi : TabInv g D (untyped D pre)) (x : String) (e : Expr V) :
    semAssign g x e = .ok g' ↔ AssignOk D pre (x, e) ∧
      g' = (if x ∈ D.map Prod.fst then g else g.set x none) := by
  simp only [semAssign, symLookup_one]
  cases hx : g.get? x with
  | none =>
    have hn := (hi.none_iff x).mp hx
    have hi' := hi.set_untyped hx
    have hp : ∀ e', (x, e') ∉ pre := fun e' hm => hn.2.2 (mem_untyped.mpr ⟨hn.2.1, e', hm⟩)
    simp only [Except.bind_ok_iff, if_neg hn.2.1]
    constructor
    · rintro ⟨_, h1, h2⟩
      simp at h2
      refine ⟨⟨Or.inr ⟨hn.2.1, hn.1, hp⟩, ?_⟩, h2.symm⟩
      have := (hi'.uses_one e).mp h1
      refine ⟨this.noCmp, fun y hy => ?_, this.pvars⟩
      rcases this.vars y hy with h | h | h
      · exact Or.inr (Or.inl h)
      · exact Or.inl h
      · rcases List.mem_append.mp h with h | h
        · exact Or.inr (Or.inr (Or.inr (mem_untyped.mp h).2))
        · exact Or.inr (Or.inr (Or.inl (by simpa using h)))
    · rintro ⟨⟨_, hu⟩, rfl⟩
      refine ⟨(), (hi'.uses_one e).mpr ⟨hu.noCmp, fun y hy => ?_, hu.pvars⟩, rfl⟩
      by_cases hd : y ∈ D.map Prod.fst
      · exact Or.inr (Or.inl hd)
      · rcases hu.vars y hy with h | h | h | h
        · exact Or.inr (Or.inl h)
        · exact Or.inl h
        · exact Or.inr (Or.inr (by simp [h]))
        · exact Or.inr (Or.inr (List.mem_append_left _ (mem_untyped.mpr ⟨hd, h⟩)))
  | some s =>
    cases s with
    | none =>
      have hnd : x ∉ D.map Prod.fst := by
        intro hm
        obtain ⟨⟨y, k⟩, hz, rfl⟩ := List.mem_map.mp hm
        rw [(hi.ty _ _).mpr hz] at hx; simp at hx
      constructor
      · intro h; simp [stypeName, bind, Except.bind] at h
      · rintro ⟨⟨h | h, _⟩, _⟩
        · exact absurd (List.mem_map.mpr ⟨_, h, rfl⟩) hnd
        · rcases (hi.mem x).mp ⟨_, hx⟩ with a | a | a
          · exact absurd a h.2.1
          · exact absurd a hnd
          · exact absurd (mem_untyped.mp a).2.choose_spec (h.2.2 _)
    | some k =>
      have hd := (hi.ty x k).mp hx
      have hdm : x ∈ D.map Prod.fst := List.mem_map.mpr ⟨_, hd, rfl⟩
      by_cases hk : k = "parameters"
      · subst hk
        simp only [stypeName, bind, Except.bind, ne_eq, not_true, if_false, if_pos hdm]
        have := hi.uses_one e
        constructor
        · intro h
          cases he : semExpr [g] e with
          | error er => rw [he] at h; simp at h
          | ok u =>
            rw [he] at h; simp at h
            have hu := this.mp he
            refine ⟨⟨Or.inl hd, ⟨hu.noCmp, fun y hy => ?_, hu.pvars⟩⟩, h.symm⟩
            rcases hu.vars y hy with h | h | h
            · exact Or.inr (Or.inl h)
            · exact Or.inl h
            · exact Or.inr (Or.inr (Or.inr (mem_untyped.mp h).2))
        · rintro ⟨⟨_, hu⟩, rfl⟩
          have : semExpr [g'] e = .ok () := by
            refine this.mpr ⟨hu.noCmp, fun y hy => ?_, hu.pvars⟩
            by_cases hyd : y ∈ D.map Prod.fst
            · exact Or.inr (Or.inl hyd)
            · rcases hu.vars y hy with h | h | h | h
              · exact Or.inr (Or.inl h)
              · exact Or.inl h
              · simp only at h; subst h; exact absurd hdm hyd
              · exact Or.inr (Or.inr (mem_untyped.mpr ⟨hyd, h⟩))
          rw [this]
      · constructor
        · intro h; simp [stypeName, bind, Except.bind, hk] at h
        · rintro ⟨⟨h | h, _⟩, _⟩
          · exact absurd (hi.eq_of_mem hd h) hk
          · exact absurd hdm h.1

theorem semAssign_tab {g : SymTab} {D} {pre : List (String × Expr V)}
    (hi : TabInv g D (untyped D pre)) {x : String} {e : Expr V} (h : AssignOk D pre (x, e)) :
    TabInv (if x ∈ D.map Prod.fst then g else g.set x none) D (untyped D (pre ++ [(x, e)])) := by
  rw [untyped_append]
  by_cases hd : x ∈ D.map Prod.fst
  · rw [if_pos hd]
    have : untyped D [(x, e)] = [] := by
      apply List.eq_nil_iff_forall_not_mem.mpr
      intro y hy
      have := mem_untyped.mp hy
      obtain ⟨h1, e', h2⟩ := this
      simp at h2; obtain ⟨rfl, _⟩ := h2; exact h1 hd
    rw [this]; simpa using hi
  · rw [if_neg hd]
    have : untyped D [(x, e)] = [x] := by
      simp only [untyped, List.map_cons, List.map_nil]
      rw [List.filter_cons_of_pos (by simpa using hd)]
      rfl
    rw [this]
    rcases h.1 with h1 | h1
    · exact absurd (List.mem_map.mpr ⟨_, h1, rfl⟩) hd
    · refine hi.set_untyped ((hi.none_iff x).mpr ⟨h1.2.1, h1.1, ?_⟩)
      intro hm
      exact absurd (mem_untyped.mp hm).2.choose_spec (h1.2.2 _)

theorem semAssigns_iff {D} (as : List (String × Expr V)) : ∀ {g : SymTab} {pre},
    TabInv g D (untyped D pre) →
    ((∃ g', semAssigns g as = .ok g') ↔ EachAfter (AssignOk D) pre as) ∧
    (∀ g', semAssigns g as = .ok g' → TabInv g' D (untyped D (pre ++ as))) := by
  induction as with
  | nil =>
    intro g pre hi
    refine ⟨⟨fun _ => eachAfter_nil, fun _ => ⟨g, rfl⟩⟩, ?_⟩
    intro g' h; simp [semAssigns] at h; subst h; simpa using hi
  | cons a as ih =>
    obtain ⟨x, e⟩ := a
    intro g pre hi
    rw [eachAfter_cons]
    constructor
    · constructor
      · rintro ⟨g', h⟩
        simp only [semAssigns, Except.bind_ok_iff] at h
        obtain ⟨g1, h1, h2⟩ := h
        obtain ⟨ok, rfl⟩ := (semAssign_iff hi x e).mp h1
        exact ⟨ok, (ih (semAssign_tab hi ok)).1.mp ⟨g', h2⟩⟩
      · rintro ⟨ok, hr⟩
        obtain ⟨g', h⟩ := (ih (semAssign_tab hi ok)).1.mpr hr
        refine ⟨g', ?_⟩
        simp only [semAssigns, Except.bind_ok_iff]
        exact ⟨_, (semAssign_iff hi x e).mpr ⟨ok, rfl⟩, h⟩
    · intro g' h
      simp only [semAssigns, Except.bind_ok_iff] at h
      obtain ⟨g1, h1, h2⟩ := h
      obtain ⟨ok, rfl⟩ := (semAssign_iff hi x e).mp h1
      have := (ih (semAssign_tab hi ok)).2 g' h2
      simpa using this

/-! ### the model block -/

/-- the local variables that a list of statements defines -/
def locals (ss : List (Stmt V)) : List String :=
  ss.filterMap fun s => match s with
    | .loc x _ => some x
    | _ => none

theorem mem_locals {ss : List (Stmt V)} {x : String} : x ∈ locals ss ↔ ∃ s ∈ ss, s.defines x := by
  simp only [locals, List.mem_filterMap, Stmt.defines]
  constructor
  · rintro ⟨s, hs, h⟩
    cases s with
    | eqn l r t => simp at h
    | loc y e => simp at h; subst h; exact ⟨_, hs, e, rfl⟩
  · rintro ⟨s, hs, e, rfl⟩; exact ⟨_, hs, by simp⟩

/-- condition on one statement of the model block -/
def StmtOk (D : List (String × String)) (A : List String) (pre : List (Stmt V)) : Stmt V → Prop
  | .eqn l r _ => ∀ e, e = l ∨ e = r →
    Uses (fun y => y ∈ D.map Prod.fst ∨ y ∈ A ∨ TypeWord y ∨ ∃ s ∈ pre, s.defines y)
      (fun y => ∃ k, (y, k) ∈ D ∧ k ≠ "parameters") e
  | .loc x e => (x ∉ D.map Prod.fst ∧ x ∉ A ∧ ¬ TypeWord x ∧ ∀ s ∈ pre, ¬ s.defines x) ∧
    Uses (fun y => y ∈ D.map Prod.fst ∨ y ∈ A ∨ TypeWord y ∨ ∃ s ∈ pre, s.defines y)
      (fun y => ∃ k, (y, k) ∈ D ∧ k ≠ "parameters") e

/-- the scope of the model block after some statements -/
structure LocInv (m g : SymTab) (D : List (String × String)) (A : List String)
    (pre : List (Stmt V)) : Prop where
  inner : TabInv m ((locals pre).map fun x => (x, "parameters")) []
  fresh : ∀ x ∈ locals pre, x ∉ D.map Prod.fst
  outer : TabInv g D A

theorem LocInv.look {m g : SymTab} {D A} {pre : List (Stmt V)} (h : LocInv m g D A pre) (x : String) :
    (∃ s, symLookup [m, g] x = some s) ↔
      x ∈ D.map Prod.fst ∨ x ∈ A ∨ TypeWord x ∨ ∃ s ∈ pre, s.defines x := by
  rw [symLookup_two, ← mem_locals]
  have hm := h.inner.mem x
  have hg := h.outer.mem x
  simp only [List.map_map, Function.comp_def, List.map_id'] at hm
  cases hx : m.get? x with
  | some s =>
    have := hm.mp ⟨s, hx⟩
    simp only [List.not_mem_nil, or_false] at this
    constructor
    · rintro -
      rcases this with a | a
      · exact Or.inr (Or.inr (Or.inl a))
      · exact Or.inr (Or.inr (Or.inr a))
    · rintro -; exact ⟨s, rfl⟩
  | none =>
    simp only
    rw [hg]
    have : ¬ (TypeWord x ∨ x ∈ locals pre ∨ x ∈ ([] : List String)) := by
      rw [← hm]; rintro ⟨s, hs⟩; rw [hx] at hs; cases hs
    simp only [not_or] at this
    constructor
    · rintro (a | a | a)
      · exact absurd a this.1
      · exact Or.inl a
      · exact Or.inr (Or.inl a)
    · rintro (a | a | a | a)
      · exact Or.inr (Or.inl a)
      · exact Or.inr (Or.inr a)
      · exact absurd a this.1
      · exact absurd a this.2.1

theorem LocInv.timed {m g : SymTab} {D A} {pre : List (Stmt V)} (h : LocInv m g D A pre)
    (hw : ∀ x ∈ D.map Prod.fst, ¬ TypeWord x) (x : String) :
    (∃ k, symLookup [m, g] x = some (some k) ∧ k ≠ "parameters") ↔
      ∃ k, (x, k) ∈ D ∧ k ≠ "parameters" := by
  rw [symLookup_two]
  have hm := h.inner.mem x
  have ht := h.inner.ty x
  simp only [List.map_map, Function.comp_def, List.map_id'] at hm
  cases hx : m.get? x with
  | some s =>
    constructor
    · rintro ⟨k, h1, h2⟩
      simp only [Option.some.injEq] at h1
      subst h1
      have := (ht k).mp hx
      simp only [List.mem_map, Prod.mk.injEq] at this
      obtain ⟨_, _, _, rfl⟩ := this
      exact absurd rfl h2
    · rintro ⟨k, h1, h2⟩
      have hd : x ∈ D.map Prod.fst := List.mem_map.mpr ⟨_, h1, rfl⟩
      rcases hm.mp ⟨s, hx⟩ with a | a | a
      · exact absurd a (hw x hd)
      · exact absurd hd (h.fresh x a)
      · simp at a
  | none => simp only [h.outer.ty]

theorem LocInv.uses {m g : SymTab} {D A} {pre : List (Stmt V)} (h : LocInv m g D A pre)
    (hw : ∀ x ∈ D.map Prod.fst, ¬ TypeWord x) (e : Expr V) : semExpr [m, g] e = .ok () ↔
    Uses (fun y => y ∈ D.map Prod.fst ∨ y ∈ A ∨ TypeWord y ∨ ∃ s ∈ pre, s.defines y)
      (fun y => ∃ k, (y, k) ∈ D ∧ k ≠ "parameters") e := by
  rw [semExpr_iff]
  exact uses_congr h.look (h.timed hw) e

theorem locals_append (a b : List (Stmt V)) : locals (a ++ b) = locals a ++ locals b := by
  simp [locals]

theorem semStmt_iff {m g m' : SymTab} {D A} {pre : List (Stmt V)} (h : LocInv m g D A pre)
    (hw : ∀ x ∈ D.map Prod.fst, ¬ TypeWord x) (s : Stmt V) :
    (semStmt g m s = .ok m' → StmtOk D A pre s ∧ LocInv m' g D A (pre ++ [s])) ∧
    (StmtOk D A pre s → ∃ m', semStmt g m s = .ok m') := by
  cases s with
  | eqn l r t =>
    have e0 : locals (pre ++ [Stmt.eqn l r t]) = locals pre := by
      rw [locals_append]; simp [locals]
    constructor
    · intro hs
      simp only [semStmt, Except.bind_ok_iff] at hs
      obtain ⟨_, h1, _, h2, h3⟩ := hs
      simp at h3; subst h3
      refine ⟨?_, ⟨by rw [e0]; exact h.inner, by rw [e0]; exact h.fresh, h.outer⟩⟩
      rintro e (rfl | rfl)
      · exact (h.uses hw _).mp h1
      · exact (h.uses hw _).mp h2
    · intro ok
      refine ⟨m, ?_⟩
      simp only [semStmt, Except.bind_ok_iff]
      exact ⟨(), (h.uses hw l).mpr (ok l (Or.inl rfl)), (), (h.uses hw r).mpr (ok r (Or.inr rfl)), by trivial⟩
  | loc x e =>
    have e0 : locals (pre ++ [Stmt.loc x e]) = locals pre ++ [x] := by
      rw [locals_append]; simp [locals]
    have hpar : ∃ s, symLookup [m, g] "parameters" = some s :=
      (h.look _).mpr (Or.inr (Or.inr (Or.inl (by simp [TypeWord]))))
    obtain ⟨sp, hpar⟩ := hpar
    constructor
    · intro hs
      simp only [semStmt] at hs
      cases hx : symLookup [m, g] x with
      | some s => rw [hx] at hs; simp at hs
      | none =>
        rw [hx, hpar] at hs
        simp only [Except.bind_ok_iff] at hs
        obtain ⟨_, h1, h2⟩ := hs
        simp at h2; subst h2
        have hn : ¬ (x ∈ D.map Prod.fst ∨ x ∈ A ∨ TypeWord x ∨ ∃ s ∈ pre, s.defines x) := by
          rw [← h.look]; rintro ⟨s, hs⟩; rw [hx] at hs; cases hs
        simp only [not_or] at hn
        have hmx : m.get? x = none := by
          rw [symLookup_two] at hx
          cases hq : m.get? x with
          | none => rfl
          | some s => rw [hq] at hx; simp at hx
        refine ⟨⟨⟨hn.1, hn.2.1, hn.2.2.1, fun s hs hd => hn.2.2.2 ⟨s, hs, hd⟩⟩, (h.uses hw e).mp h1⟩,
          ⟨?_, ?_, h.outer⟩⟩
        · rw [e0, List.map_append]
          exact h.inner.set_typed hmx
        · rw [e0]
          intro y hy
          rcases List.mem_append.mp hy with hy | hy
          · exact h.fresh y hy
          · simp at hy; subst hy; exact hn.1
    · rintro ⟨⟨a1, a2, a3, a4⟩, hu⟩
      have hx : symLookup [m, g] x = none := by
        cases hx : symLookup [m, g] x with
        | none => rfl
        | some s =>
          rcases (h.look x).mp ⟨s, hx⟩ with b | b | b | ⟨s, b, c⟩
          · exact absurd b a1
          · exact absurd b a2
          · exact absurd b a3
          · exact absurd c (a4 s b)
      refine ⟨m.set x (some "parameters"), ?_⟩
      simp only [semStmt, hx, hpar, (h.uses hw e).mpr hu]
      rfl

theorem semStmts_iff {g : SymTab} {D A} (hw : ∀ x ∈ D.map Prod.fst, ¬ TypeWord x)
    (ss : List (Stmt V)) : ∀ {m : SymTab} {pre}, LocInv m g D A pre →
    ((∃ m', semStmts g m ss = .ok m') ↔ EachAfter (StmtOk D A) pre ss) := by
  induction ss with
  | nil => intro m pre _; exact ⟨fun _ => eachAfter_nil, fun _ => ⟨m, rfl⟩⟩
  | cons s ss ih =>
    intro m pre h
    rw [eachAfter_cons]
    constructor
    · rintro ⟨m', hs⟩
      simp only [semStmts, Except.bind_ok_iff] at hs
      obtain ⟨m1, h1, h2⟩ := hs
      obtain ⟨ok, h'⟩ := (semStmt_iff h hw s).1 h1
      exact ⟨ok, (ih h').mp ⟨m', h2⟩⟩
    · rintro ⟨ok, hr⟩
      obtain ⟨m1, h1⟩ := (semStmt_iff (m' := m) h hw s).2 ok
      obtain ⟨_, h'⟩ := (semStmt_iff h hw s).1 h1
      obtain ⟨m', h2⟩ := (ih h').mpr hr
      refine ⟨m', ?_⟩
      simp only [semStmts, Except.bind_ok_iff]
      exact ⟨m1, h1, h2⟩

/-! ### the blocks after the model -/

theorem stypeName_ok {g : SymTab} {D A} (hi : TabInv g D A) {x k : String} :
    stypeName (symLookup [g] x) = .ok k ↔ (x, k) ∈ D := by
  rw [symLookup_one, ← hi.ty]
  cases g.get? x with
  | none => simp [stypeName]
  | some s => cases s <;> simp [stypeName]

theorem semBound_iff {g : SymTab} {D A} (hi : TabInv g D A) (bs : List (String × Expr V)) :
    semBound g bs = .ok () ↔ ∀ x e, (x, e) ∈ bs → (x, "var") ∈ D ∧
      Uses (fun y => TypeWord y ∨ y ∈ D.map Prod.fst ∨ y ∈ A)
        (fun y => ∃ k, (y, k) ∈ D ∧ k ≠ "parameters") e := by
  induction bs with
  | nil => simp [semBound]
  | cons b bs ih =>
    obtain ⟨x, e⟩ := b
    simp only [semBound, Except.bind_ok_iff]
    constructor
    · rintro ⟨k, hk, h⟩
      by_cases hv : k = "var"
      · subst hv
        simp only [ne_eq, not_true, if_false, Except.bind_ok_iff] at h
        obtain ⟨_, h1, h2⟩ := h
        intro y f hm
        rcases List.mem_cons.mp hm with hm | hm
        · cases hm; exact ⟨(stypeName_ok hi).mp hk, (hi.uses_one _).mp h1⟩
        · exact ih.mp h2 y f hm
      · simp [hv] at h
    · intro h
      have h0 := h x e (List.mem_cons_self ..)
      refine ⟨"var", (stypeName_ok hi).mpr h0.1, ?_⟩
      simp only [ne_eq, not_true, if_false, Except.bind_ok_iff]
      exact ⟨(), (hi.uses_one _).mpr h0.2, ih.mpr fun y f hm => h y f (List.mem_cons_of_mem _ hm)⟩

theorem semExo_iff {g : SymTab} {D A} (hi : TabInv g D A) (x : String) :
    semExo g x = .ok () ↔ (x, "varexo") ∈ D ∨ (x, "varexo_det") ∈ D := by
  simp only [semExo, Except.bind_ok_iff, stypeName_ok hi]
  constructor
  · rintro ⟨k, hk, h⟩
    by_cases hv : k = "varexo" ∨ k = "varexo_det"
    · rcases hv with rfl | rfl
      · exact Or.inl hk
      · exact Or.inr hk
    · simp [hv] at h
  · rintro (h | h)
    · exact ⟨_, h, by simp⟩
    · exact ⟨_, h, by simp⟩

/-- condition on one shock -/
def ShockOk (D : List (String × String)) (A : List String) (s : Shock V) : Prop :=
  let exo := fun x => (x, "varexo") ∈ D ∨ (x, "varexo_det") ∈ D
  let u := fun e => Uses (V := V) (fun y => TypeWord y ∨ y ∈ D.map Prod.fst ∨ y ∈ A)
        (fun y => ∃ k, (y, k) ∈ D ∧ k ≠ "parameters") e
  match s with
  | .corr x y e => exo x ∧ exo y ∧ u e
  | .cov x y e => exo x ∧ exo y ∧ u e
  | .variance x e => exo x ∧ u e
  | .stderr x e => exo x ∧ u e
  | .det _ _ _ => False

theorem semShock_iff {g : SymTab} {D A} (hi : TabInv g D A) (s : Shock V) :
    semShock g s = .ok () ↔ ShockOk D A s := by
  cases s with
  | corr x y e =>
    simp only [semShock, Except.bind_ok_iff, semExo_iff hi, hi.uses_one, ShockOk]
    constructor
    · rintro ⟨_, a, _, b, c⟩; exact ⟨a, c, b⟩
    · rintro ⟨a, c, b⟩; exact ⟨(), a, (), b, c⟩
  | cov x y e =>
    simp only [semShock, Except.bind_ok_iff, semExo_iff hi, hi.uses_one, ShockOk]
    constructor
    · rintro ⟨_, a, _, b, c⟩; exact ⟨a, c, b⟩
    · rintro ⟨a, c, b⟩; exact ⟨(), a, (), b, c⟩
  | variance x e =>
    simp only [semShock, Except.bind_ok_iff, semExo_iff hi, hi.uses_one, ShockOk]
    constructor
    · rintro ⟨_, a, b⟩; exact ⟨a, b⟩
    · rintro ⟨a, b⟩; exact ⟨(), a, b⟩
  | stderr x e =>
    simp only [semShock, Except.bind_ok_iff, semExo_iff hi, hi.uses_one, ShockOk]
    constructor
    · rintro ⟨_, a, b⟩; exact ⟨a, b⟩
    · rintro ⟨a, b⟩; exact ⟨(), a, b⟩
  | det x p v =>
    simp only [semShock, Except.bind_ok_iff, ShockOk]
    constructor
    · rintro ⟨_, _, h⟩; simp at h
    · exact False.elim

theorem semShocks_iff {g : SymTab} {D A} (hi : TabInv g D A) (ss : List (Shock V)) :
    semShocks g ss = .ok () ↔ ∀ s ∈ ss, ShockOk D A s := by
  induction ss with
  | nil => simp [semShocks]
  | cons s ss ih =>
    simp only [semShocks, Except.bind_ok_iff, semShock_iff hi, ih]
    simp

theorem semBoundOpt_iff {g : SymTab} {D A} (hi : TabInv g D A) (b : Option (Bound V)) :
    semBoundOpt g b = .ok () ↔ ∀ c, b = some c → ∀ x e, (x, e) ∈ c.vals → (x, "var") ∈ D ∧
      Uses (fun y => TypeWord y ∨ y ∈ D.map Prod.fst ∨ y ∈ A)
        (fun y => ∃ k, (y, k) ∈ D ∧ k ≠ "parameters") e := by
  cases b with
  | none => simp [semBoundOpt]
  | some c => simp [semBoundOpt, semBound_iff hi]

theorem declared_iff (m : ModelFile V) (x : String) : m.Declared x ↔ x ∈ m.decls.map Prod.fst := by
  simp only [ModelFile.Declared, ModelFile.DeclaredAs, List.mem_map]
  constructor
  · rintro ⟨k, h⟩; exact ⟨_, h, rfl⟩
  · rintro ⟨⟨y, k⟩, h, rfl⟩; exact ⟨k, h⟩

theorem uses_last (m : ModelFile V) (e : Expr V) :
    Uses (fun y => TypeWord y ∨ y ∈ m.decls.map Prod.fst ∨ y ∈ untyped m.decls m.params)
        (fun y => ∃ k, (y, k) ∈ m.decls ∧ k ≠ "parameters") e ↔
    Uses (fun y => m.Declared y ∨ m.Assigned y ∨ TypeWord y) m.Timed e := by
  refine uses_congr ?_ (fun _ => Iff.rfl) e
  intro y
  rw [declared_iff, mem_untyped]
  constructor
  · rintro (h | h | h)
    · exact Or.inr (Or.inr h)
    · exact Or.inl h
    · exact Or.inr (Or.inl h.2)
  · rintro (h | h | h)
    · exact Or.inr (Or.inl h)
    · by_cases hd : y ∈ m.decls.map Prod.fst
      · exact Or.inr (Or.inl hd)
      · exact Or.inr (Or.inr ⟨hd, h⟩)
    · exact Or.inl h

theorem uses_model (m : ModelFile V) (pre : List (Stmt V)) (e : Expr V) :
    Uses (fun y => y ∈ m.decls.map Prod.fst ∨ y ∈ untyped m.decls m.params ∨ TypeWord y ∨
          ∃ s ∈ pre, s.defines y)
        (fun y => ∃ k, (y, k) ∈ m.decls ∧ k ≠ "parameters") e ↔
    Uses (fun y => m.Declared y ∨ m.Assigned y ∨ TypeWord y ∨ ∃ s ∈ pre, s.defines y) m.Timed e := by
  refine uses_congr ?_ (fun _ => Iff.rfl) e
  intro y
  rw [declared_iff, mem_untyped]
  constructor
  · rintro (h | h | h)
    · exact Or.inl h
    · exact Or.inr (Or.inl h.2)
    · exact Or.inr (Or.inr h)
  · rintro (h | h | h)
    · exact Or.inl h
    · by_cases hd : y ∈ m.decls.map Prod.fst
      · exact Or.inl hd
      · exact Or.inr (Or.inl ⟨hd, h⟩)
    · exact Or.inr (Or.inr h)

theorem verify_iff (m : ModelFile V) (hk : ∀ p ∈ m.decls, p.2 ∈ varTypes) :
    verify m = .ok () ↔ Accepted m := by
  have hd := semDecls_ok hk freshTab_inv
  have hloc0 : ∀ {g : SymTab}, TabInv g m.decls (untyped m.decls m.params) →
      LocInv (V := V) freshTab g m.decls (untyped m.decls m.params) [] := fun h =>
    ⟨freshTab_inv, by simp [locals], h⟩
  simp only [verify, Except.bind_ok_iff]
  constructor
  · rintro ⟨g0, h0, g, h1, m', h2, h3⟩
    have hdecl := hd.mp ⟨g0, h0⟩
    have i0 : TabInv g0 m.decls [] := by simpa using semDecls_inv hk freshTab_inv h0
    have i0' : TabInv g0 m.decls (untyped (V := V) m.decls []) := by simpa [untyped] using i0
    obtain ⟨ha, ha'⟩ := semAssigns_iff m.params i0'
    have hass := ha.mp ⟨g, h1⟩
    have i1 : TabInv g m.decls (untyped m.decls m.params) := by simpa using ha' g h1
    have hw : ∀ x ∈ m.decls.map Prod.fst, ¬ TypeWord x := fun x hx => (hdecl.2 x hx).1
    have hst := (semStmts_iff hw m.stmts (hloc0 i1)).mp ⟨m', h2⟩
    simp only [semActions, Except.bind_ok_iff] at h3
    obtain ⟨_, b1, _, b2, _, b3, hs⟩ := h3
    rw [semBoundOpt_iff i1] at b1 b2 b3
    refine ⟨hdecl.1, fun x hx => hw x ((declared_iff m x).mp hx), ?_, ?_, ?_, ?_, ?_, ?_, ?_, ?_, ?_⟩
    · intro pre x e post he
      rcases (hass pre (x, e) post he).1 with h | ⟨h1, h2, h3⟩
      · exact Or.inl h
      · exact Or.inr ⟨fun h => h1 ((declared_iff m x).mp h), h2, by simpa using h3⟩
    · intro pre x e post he
      refine (uses_congr ?_ (fun _ => Iff.rfl) e).mp (hass pre (x, e) post he).2
      intro y; rw [declared_iff]; simp
    · intro pre x e post he
      obtain ⟨⟨a1, a2, a3, a4⟩, _⟩ := hst pre (.loc x e) post he
      refine ⟨fun h => a1 ((declared_iff m x).mp h), fun h => a2 (mem_untyped.mpr ⟨a1, h⟩), a3, ?_⟩
      simpa using a4
    · intro pre x e post he
      obtain ⟨_, hu⟩ := hst pre (.loc x e) post he
      simpa using (uses_model m _ e).mp hu
    · intro pre l r tags post he e hlr
      have hu := hst pre (.eqn l r tags) post he e hlr
      simpa using (uses_model m _ e).mp hu
    · rintro b (hb | hb | hb) x e hm
      · exact ⟨(b1 b hb x e hm).1, (uses_last m e).mp (b1 b hb x e hm).2⟩
      · exact ⟨(b2 b hb x e hm).1, (uses_last m e).mp (b2 b hb x e hm).2⟩
      · exact ⟨(b3 b hb x e hm).1, (uses_last m e).mp (b3 b hb x e hm).2⟩
    · cases hsh : m.actions.shocks with
      | none => rw [hsh] at hs; simp at hs
      | some s => exact ⟨s, rfl⟩
    · intro s hsh x ps vs hm
      rw [hsh] at hs
      exact (semShocks_iff i1 _).mp hs _ hm
    · intro s hsh x e hm
      rw [hsh] at hs
      have hs := (semShocks_iff i1 _).mp hs
      rcases hm with h | h | ⟨y, h⟩ | ⟨y, h⟩ | ⟨y, h⟩ | ⟨y, h⟩
      · have := hs _ h; exact ⟨this.1, (uses_last m e).mp this.2⟩
      · have := hs _ h; exact ⟨this.1, (uses_last m e).mp this.2⟩
      · have := hs _ h; exact ⟨this.1, (uses_last m e).mp this.2.2⟩
      · have := hs _ h; exact ⟨this.1, (uses_last m e).mp this.2.2⟩
      · have := hs _ h; exact ⟨this.2.1, (uses_last m e).mp this.2.2⟩
      · have := hs _ h; exact ⟨this.2.1, (uses_last m e).mp this.2.2⟩
  · intro acc
    obtain ⟨g0, h0⟩ := hd.mpr ⟨acc.declNodup, fun x hx =>
      ⟨acc.declWord x ((declared_iff m x).mpr hx), by simp⟩⟩
    have i0 : TabInv g0 m.decls [] := by simpa using semDecls_inv hk freshTab_inv h0
    have i0' : TabInv g0 m.decls (untyped (V := V) m.decls []) := by simpa [untyped] using i0
    obtain ⟨ha, ha'⟩ := semAssigns_iff m.params i0'
    obtain ⟨g, h1⟩ := ha.mpr (by
      rintro pre ⟨x, e⟩ post he
      refine ⟨?_, ?_⟩
      · rcases acc.assign pre x e post he with h | ⟨a, b, c⟩
        · exact Or.inl h
        · exact Or.inr ⟨fun h => a ((declared_iff m x).mpr h), b, by simpa using c⟩
      · refine (uses_congr ?_ (fun _ => Iff.rfl) e).mpr (acc.assignExpr pre x e post he)
        intro y; rw [declared_iff]; simp)
    have i1 : TabInv g m.decls (untyped m.decls m.params) := by simpa using ha' g h1
    have hw : ∀ x ∈ m.decls.map Prod.fst, ¬ TypeWord x := fun x hx =>
      acc.declWord x ((declared_iff m x).mpr hx)
    obtain ⟨m', h2⟩ := (semStmts_iff hw m.stmts (hloc0 i1)).mpr (by
      intro pre s post he
      cases s with
      | eqn l r t =>
        intro e hlr
        exact (uses_model m _ e).mpr (by simpa using acc.eqnExpr pre l r t post he e hlr)
      | loc x e =>
        obtain ⟨a1, a2, a3, a4⟩ := acc.localNew pre x e post he
        refine ⟨⟨fun h => a1 ((declared_iff m x).mpr h), fun h => a2 (mem_untyped.mp h).2, a3,
          by simpa using a4⟩, ?_⟩
        exact (uses_model m _ e).mpr (by simpa using acc.localExpr pre x e post he))
    refine ⟨g0, h0, g, h1, m', h2, ?_⟩
    simp only [semActions, Except.bind_ok_iff]
    obtain ⟨s, hs⟩ := acc.shocks
    refine ⟨(), ?_, (), ?_, (), ?_, ?_⟩
    · rw [semBoundOpt_iff i1]
      intro c hc x e hm
      have := acc.bound c (Or.inl hc) x e hm
      exact ⟨this.1, (uses_last m e).mpr this.2⟩
    · rw [semBoundOpt_iff i1]
      intro c hc x e hm
      have := acc.bound c (Or.inr (Or.inl hc)) x e hm
      exact ⟨this.1, (uses_last m e).mpr this.2⟩
    · rw [semBoundOpt_iff i1]
      intro c hc x e hm
      have := acc.bound c (Or.inr (Or.inr hc)) x e hm
      exact ⟨this.1, (uses_last m e).mpr this.2⟩
    · rw [hs]
      simp only
      rw [semShocks_iff i1]
      intro t ht
      cases t with
      | det x p v => exact absurd ht (acc.noDet s hs x p v)
      | variance x e =>
        have := acc.exo s hs x e (Or.inl ht)
        exact ⟨this.1, (uses_last m e).mpr this.2⟩
      | stderr x e =>
        have := acc.exo s hs x e (Or.inr (Or.inl ht))
        exact ⟨this.1, (uses_last m e).mpr this.2⟩
      | corr x y e =>
        have a := acc.exo s hs x e (Or.inr (Or.inr (Or.inl ⟨y, ht⟩)))
        have b := acc.exo s hs y e (Or.inr (Or.inr (Or.inr (Or.inr (Or.inl ⟨x, ht⟩)))))
        exact ⟨a.1, b.1, (uses_last m e).mpr a.2⟩
      | cov x y e =>
        have a := acc.exo s hs x e (Or.inr (Or.inr (Or.inr (Or.inl ⟨y, ht⟩))))
        have b := acc.exo s hs y e (Or.inr (Or.inr (Or.inr (Or.inr (Or.inr ⟨x, ht⟩)))))
        exact ⟨a.1, b.1, (uses_last m e).mpr a.2⟩

end Pynare
