import Verif.Spec.Binding
import Verif.Lemmas.Dict
import Verif.Lemmas.Linear
/-!
# Lemmas about constraints
-/

namespace Pynare

variable {V : Type}

theorem get?_foldl_set {α β : Type} (f : β → String) (g : β → α) : ∀ (l : List β) (d : Dict α) (x : String),
    (l.map f).Nodup → (l.foldl (fun d p => d.set (f p) (g p)) d).get? x =
      match l.find? fun p => f p = x with
      | some p => some (g p)
      | none => d.get? x := by
  intro l
  induction l with
  | nil => intro d x _; rfl
  | cons b l ih =>
    intro d x hn
    rw [List.foldl_cons, ih _ _ (List.nodup_cons.mp (by simpa using hn)).2]
    have hb : f b ∉ l.map f := (List.nodup_cons.mp (by simpa using hn)).1
    rw [List.find?_cons]
    by_cases hx : f b = x
    · have : (l.find? fun p => decide (f p = x)) = none := by
        rw [List.find?_eq_none]
        intro p hp he
        exact hb (by rw [hx, ← of_decide_eq_true he]; exact List.mem_map_of_mem hp)
      rw [this]
      simp [hx, Dict.get?_set]
    · simp only [hx, decide_false]
      cases l.find? fun p => decide (f p = x) <;> simp [Dict.get?_set, hx]

theorem find?_dict (d : Dict V) (x : String) : (d.find? fun p => p.1 = x).map Prod.snd = d.get? x := by
  induction d with
  | nil => rfl
  | cons p d ih =>
    rw [List.find?_cons, Dict.get?]
    by_cases h : p.1 = x <;> simp [h, ih]

theorem find?_zipIdx : ∀ (l : List String) (k : Nat) (x : String),
    (l.zipIdx k).find? (fun p => p.1 = x) = (l.idxOf? x).map fun c => (x, c + k) := by
  intro l
  induction l with
  | nil => intro k x; rfl
  | cons a l ih =>
    intro k x
    rw [List.zipIdx_cons, List.find?_cons, List.idxOf?_cons]
    by_cases h : a = x
    · simp [h]
    · have h' : (a == x) = false := by simpa using h
      simp only [h, decide_false, h', ih]
      cases l.idxOf? x <;> simp [Nat.add_assoc, Nat.add_comm 1]

/-- the scope of a constraint -/
theorem pathScope_get {endog : List String} {params : Dict V} (hn : endog.Nodup) (hp : params.keys.Nodup) (T : Nat)
    (paths : Nat → Nat → V) (x : String) :
    (pathScope endog params T paths).get? x = match params.get? x with
      | some v => some (.num v)
      | none => (endog.idxOf? x).map fun c => .col (pathCol T paths c) := by
  unfold pathScope
  rw [get?_foldl_set Prod.fst (fun p => PathVal.num p.2) _ _ _ hp]
  have h1 := find?_dict params x
  cases hf : params.find? fun p => decide (p.1 = x) with
  | some p => rw [hf] at h1; rw [← h1]; rfl
  | none =>
    rw [hf] at h1
    rw [← h1]
    show Dict.get? _ x = _
    rw [get?_foldl_set (β := String × Nat) Prod.fst (fun p => PathVal.col (pathCol T paths p.2)) endog.zipIdx [] x
      (by simpa [List.zipIdx_map_fst] using hn), find?_zipIdx]
    cases endog.idxOf? x <;> rfl

/-- the value in a period -/
def PathVal.at (t : Nat) : PathVal V → Option V
  | .num v => some v
  | .col l => l[t]?

/-- it is a column with an entry for each period -/
def PathVal.IsCol (T : Nat) : PathVal V → Prop
  | .num _ => False
  | .col l => l.length = T

/-- what is known of a value: it has the right values, and is a column or a number -/
structure PathOk (T : Nat) (col : Prop) (v : Nat → V) (r : PathVal V) : Prop where
  at_ : ∀ t < T, r.at t = some (v t)
  yes : col → r.IsCol T
  no : ¬ col → ∃ w, r = .num w

theorem PathOk.isNum {T : Nat} {c : Prop} {v : Nat → V} {w : V} (h : PathOk T c v (.num w)) : ¬ c :=
  fun hc => h.yes hc

theorem PathOk.isCol {T : Nat} {c : Prop} {v : Nat → V} {l : List V} (h : PathOk T c v (.col l)) :
    c ∧ l.length = T := by
  by_cases hc : c
  · exact ⟨hc, h.yes hc⟩
  · obtain ⟨w, hw⟩ := h.no hc
    cases hw

theorem bcast1_ok {T : Nat} (hT : 0 < T) {f : V → Except Err V} {g : V → V} (hfg : ∀ a v, f a = .ok v → g a = v)
    {c : Prop} {v w : Nat → V} {r : PathVal V} (hr : PathOk T c v r) (h : ∀ t < T, f (v t) = .ok (w t)) :
    ∃ r', bcast1 f g r = .ok r' ∧ PathOk T c w r' := by
  cases r with
  | num a =>
    have ha : ∀ t < T, a = v t := fun t ht => Option.some.inj (hr.at_ t ht)
    refine ⟨.num (w 0), ?_, fun t ht => ?_, fun hc => absurd hc hr.isNum, fun _ => ⟨_, rfl⟩⟩
    · have h0 := h 0 hT
      rw [← ha 0 hT] at h0
      simp [bcast1, h0, bind, Except.bind]
    · show some (w 0) = some (w t)
      have h0 := h 0 hT
      have ht' := h t ht
      rw [← ha 0 hT] at h0
      rw [← ha t ht, h0] at ht'
      rw [Except.ok.inj ht']
  | col l =>
    obtain ⟨hc, hl⟩ := hr.isCol
    refine ⟨_, rfl, fun t ht => ?_, fun _ => by simpa [PathVal.IsCol] using hl, fun hn => absurd hc hn⟩
    have h1 : l[t]? = some (v t) := hr.at_ t ht
    show (l.map g)[t]? = _
    rw [List.getElem?_map, h1]
    simp [hfg _ _ (h t ht)]

theorem bcast2_ok {T : Nat} (hT : 0 < T) {f : V → V → Except Err V} {g : V → V → V}
    (hfg : ∀ a b v, f a b = .ok v → g a b = v) {c d : Prop} {v w z : Nat → V} {r s : PathVal V} (hr : PathOk T c v r)
    (hs : PathOk T d w s) (h : ∀ t < T, f (v t) (w t) = .ok (z t)) :
    ∃ r', bcast2 f g r s = .ok r' ∧ PathOk T (c ∨ d) z r' := by
  cases r with
  | num a =>
    have ha : ∀ t < T, a = v t := fun t ht => Option.some.inj (hr.at_ t ht)
    have hc := hr.isNum
    cases s with
    | num b =>
      have hb : ∀ t < T, b = w t := fun t ht => Option.some.inj (hs.at_ t ht)
      have hd := hs.isNum
      refine ⟨.num (z 0), ?_, fun t ht => ?_, fun hx => absurd hx (by tauto), fun _ => ⟨_, rfl⟩⟩
      · have h0 := h 0 hT
        rw [← ha 0 hT, ← hb 0 hT] at h0
        simp [bcast2, h0, bind, Except.bind]
      · show some (z 0) = some (z t)
        have h0 := h 0 hT
        have ht' := h t ht
        rw [← ha 0 hT, ← hb 0 hT] at h0
        rw [← ha t ht, ← hb t ht, h0] at ht'
        rw [Except.ok.inj ht']
    | col m =>
      obtain ⟨hd, hm⟩ := hs.isCol
      refine ⟨_, rfl, fun t ht => ?_, fun _ => by simpa [PathVal.IsCol] using hm, fun hn => absurd (.inr hd) hn⟩
      have h1 : m[t]? = some (w t) := hs.at_ t ht
      show (m.map (g a))[t]? = _
      rw [List.getElem?_map, h1, ha t ht]
      simp [hfg _ _ _ (h t ht)]
  | col l =>
    obtain ⟨hc, hl⟩ := hr.isCol
    have h1 : ∀ t < T, l[t]? = some (v t) := hr.at_
    cases s with
    | num b =>
      have hb : ∀ t < T, b = w t := fun t ht => Option.some.inj (hs.at_ t ht)
      refine ⟨_, rfl, fun t ht => ?_, fun _ => by simpa [PathVal.IsCol] using hl, fun hn => absurd (.inl hc) hn⟩
      show (l.map fun a => g a b)[t]? = _
      rw [List.getElem?_map, h1 t ht, hb t ht]
      simp [hfg _ _ _ (h t ht)]
    | col m =>
      obtain ⟨hd, hm⟩ := hs.isCol
      refine ⟨.col (List.zipWith g l m), ?_, fun t ht => ?_, fun _ => by simp [PathVal.IsCol, hl, hm],
        fun hn => absurd (.inl hc) hn⟩
      · simp [bcast2, hl, hm]
      · have h2 : m[t]? = some (w t) := hs.at_ t ht
        show (List.zipWith g l m)[t]? = _
        rw [List.getElem?_zipWith, h1 t ht, h2]
        simp [hfg _ _ _ (h t ht)]

/-- an expression whose value exists in every period -/
theorem evalPath_ok {ops : Ops V} {elt : EltOps V} (hag : elt.Agrees ops) {endog : List String} {params : Dict V}
    (hn : endog.Nodup) (hp : params.keys.Nodup) {T : Nat} (hT : 0 < T) (paths : Nat → Nat → V) :
    ∀ (e : Expr V) (v : Nat → V), (∀ t < T, eval ops (periodScope endog params (paths t)) e = .ok (v t)) →
      ∃ r, evalPath ops elt endog params T paths e = .ok r ∧ PathOk T (MentionsVar params e) v r := by
  intro e
  induction e with
  | num a =>
    intro v h
    refine ⟨.num a, rfl, fun t ht => ?_, fun hm => ?_, fun _ => ⟨_, rfl⟩⟩
    · exact congrArg some (Except.ok.inj (h t ht))
    · obtain ⟨x, hx, -⟩ := hm
      cases hx
  | var x =>
    intro v h
    have hg := pathScope_get hn hp T paths x
    simp only [eval, periodScope] at h
    cases hpx : params.get? x with
    | some a =>
      rw [hpx] at hg h
      refine ⟨.num a, by simp [evalPath, Expr.onPaths, eval, dictScope, hg], fun t ht => ?_, fun hm => ?_, fun _ => ⟨_, rfl⟩⟩
      · exact congrArg some (Except.ok.inj (h t ht))
      · obtain ⟨y, hy, hy'⟩ := hm
        obtain rfl : y = x := by simpa [Expr.vars] using hy
        exact absurd ((Dict.get?_isSome_iff params y).mp (by rw [hpx]; rfl)) hy'
    | none =>
      rw [hpx] at hg h
      cases hi : endog.idxOf? x with
      | none => rw [hi] at h; cases h 0 hT
      | some c =>
        rw [hi] at hg h
        refine ⟨.col (pathCol T paths c), by simp [evalPath, Expr.onPaths, eval, dictScope, hg], fun t ht => ?_,
          fun _ => by simp [PathVal.IsCol, pathCol], fun hm => absurd ?_ hm⟩
        · have := Except.ok.inj (h t ht)
          simp [PathVal.at, pathCol, ht, this]
        · exact ⟨x, by simp [Expr.vars], (Dict.get?_eq_none_iff params x).mp hpx⟩
  | pvar x o => intro v h; cases h 0 hT
  | un o e ih =>
    intro v h
    simp only [eval, Except.bind_ok_iff] at h
    have : ∀ t, ∃ a, t < T → eval ops (periodScope endog params (paths t)) e = .ok a ∧ ops.un o a = .ok (v t) := by
      intro t
      by_cases ht : t < T
      · obtain ⟨a, h1, h2⟩ := h t ht
        exact ⟨a, fun _ => ⟨h1, h2⟩⟩
      · exact ⟨v t, fun h => absurd h ht⟩
    choose a ha using this
    obtain ⟨r, hr, hok⟩ := ih a fun t ht => (ha t ht).1
    obtain ⟨r', hr', hok'⟩ := bcast1_ok hT (fun x y => hag.un o x y) hok fun t ht => (ha t ht).2
    refine ⟨r', ?_, hok'⟩
    unfold evalPath at hr ⊢
    simp only [Expr.onPaths, eval, hr, bind, Except.bind]
    exact hr'
  | bin o l r ihl ihr =>
    intro v h
    simp only [eval, Except.bind_ok_iff] at h
    have : ∀ t, ∃ a b, t < T → eval ops (periodScope endog params (paths t)) l = .ok a ∧
        eval ops (periodScope endog params (paths t)) r = .ok b ∧ ops.bin o a b = .ok (v t) := by
      intro t
      by_cases ht : t < T
      · obtain ⟨a, h1, b, h2, h3⟩ := h t ht
        exact ⟨a, b, fun _ => ⟨h1, h2, h3⟩⟩
      · exact ⟨v t, v t, fun h => absurd h ht⟩
    choose a b ha using this
    obtain ⟨r1, hr1, hok1⟩ := ihl a fun t ht => (ha t ht).1
    obtain ⟨r2, hr2, hok2⟩ := ihr b fun t ht => (ha t ht).2.1
    obtain ⟨r', hr', hok'⟩ := bcast2_ok hT (fun x y z => hag.bin o x y z) hok1 hok2 fun t ht => (ha t ht).2.2
    refine ⟨r', ?_, ?_⟩
    · unfold evalPath at hr1 hr2 ⊢
      simp only [Expr.onPaths, eval, hr1, hr2, bind, Except.bind]
      exact hr'
    · have : MentionsVar params (Expr.bin o l r) ↔ (MentionsVar params l ∨ MentionsVar params r) := by
        simp [MentionsVar, Expr.vars, or_and_right, exists_or]
      rw [this]; exact hok'
  | cmp o l r ihl ihr =>
    intro v h
    simp only [eval, Except.bind_ok_iff] at h
    have : ∀ t, ∃ a b, t < T → eval ops (periodScope endog params (paths t)) l = .ok a ∧
        eval ops (periodScope endog params (paths t)) r = .ok b ∧ ops.cmp o a b = .ok (v t) := by
      intro t
      by_cases ht : t < T
      · obtain ⟨a, h1, b, h2, h3⟩ := h t ht
        exact ⟨a, b, fun _ => ⟨h1, h2, h3⟩⟩
      · exact ⟨v t, v t, fun h => absurd h ht⟩
    choose a b ha using this
    obtain ⟨r1, hr1, hok1⟩ := ihl a fun t ht => (ha t ht).1
    obtain ⟨r2, hr2, hok2⟩ := ihr b fun t ht => (ha t ht).2.1
    obtain ⟨r', hr', hok'⟩ := bcast2_ok hT (fun x y z => hag.cmp o x y z) hok1 hok2 fun t ht => (ha t ht).2.2
    refine ⟨r', ?_, ?_⟩
    · unfold evalPath at hr1 hr2 ⊢
      simp only [Expr.onPaths, eval, hr1, hr2, bind, Except.bind]
      exact hr'
    · have : MentionsVar params (Expr.cmp o l r) ↔ (MentionsVar params l ∨ MentionsVar params r) := by
        simp [MentionsVar, Expr.vars, or_and_right, exists_or]
      rw [this]; exact hok'
  | fn f e ih =>
    intro v h
    cases hf : f.unsupported with
    | true => simp only [eval, hf, if_true] at h; cases h 0 hT
    | false =>
      simp only [eval, hf, Bool.false_eq_true, if_false, Except.bind_ok_iff] at h
      have : ∀ t, ∃ a, t < T → eval ops (periodScope endog params (paths t)) e = .ok a ∧
          ops.fn (if f = .ln then .log else f) a = .ok (v t) := by
        intro t
        by_cases ht : t < T
        · obtain ⟨a, h1, h2⟩ := h t ht
          exact ⟨a, fun _ => ⟨h1, h2⟩⟩
        · exact ⟨v t, fun h => absurd h ht⟩
      choose a ha using this
      obtain ⟨r, hr, hok⟩ := ih a fun t ht => (ha t ht).1
      obtain ⟨r', hr', hok'⟩ := bcast1_ok hT (fun x y => hag.fn _ x y) hok fun t ht => (ha t ht).2
      refine ⟨r', ?_, hok'⟩
      unfold evalPath at hr ⊢
      simp only [Expr.onPaths, eval, hf, Bool.false_eq_true, if_false, hr, bind, Except.bind]
      exact hr'

/-- names in an expression that has a value -/
theorem eval_names {W : Type} {ops : Ops W} {look : String → Except Err W} : ∀ {e : Expr W} {v : W},
    eval ops look e = .ok v → e.pvars = [] ∧ ∀ x ∈ e.vars, ∃ w, look x = .ok w := by
  intro e
  induction e with
  | num a => intro v _; simp [Expr.pvars, Expr.vars]
  | var x => intro v h; simpa [Expr.pvars, Expr.vars] using ⟨v, h⟩
  | pvar x o => intro v h; cases h
  | un o e ih =>
    intro v h
    simp only [eval, Except.bind_ok_iff] at h
    obtain ⟨a, h1, -⟩ := h
    exact ih h1
  | bin o l r ihl ihr =>
    intro v h
    simp only [eval, Except.bind_ok_iff] at h
    obtain ⟨a, h1, b, h2, -⟩ := h
    refine ⟨by simp [Expr.pvars, (ihl h1).1, (ihr h2).1], fun x hx => ?_⟩
    rcases List.mem_append.mp hx with hx | hx
    · exact (ihl h1).2 x hx
    · exact (ihr h2).2 x hx
  | cmp o l r ihl ihr =>
    intro v h
    simp only [eval, Except.bind_ok_iff] at h
    obtain ⟨a, h1, b, h2, -⟩ := h
    refine ⟨by simp [Expr.pvars, (ihl h1).1, (ihr h2).1], fun x hx => ?_⟩
    rcases List.mem_append.mp hx with hx | hx
    · exact (ihl h1).2 x hx
    · exact (ihr h2).2 x hx
  | fn f e ih =>
    intro v h
    cases hf : f.unsupported with
    | true => simp only [eval, hf, if_true] at h; cases h
    | false =>
      simp only [eval, hf, Bool.false_eq_true, if_false, Except.bind_ok_iff] at h
      obtain ⟨a, h1, -⟩ := h
      exact ih h1

theorem onPaths_names (e : Expr V) : e.onPaths.vars = e.vars ∧ e.onPaths.pvars = e.pvars := by
  induction e with
  | num a => exact ⟨rfl, rfl⟩
  | var x => exact ⟨rfl, rfl⟩
  | pvar x o => exact ⟨rfl, rfl⟩
  | un o e ih => exact ih
  | bin o l r ihl ihr => simp [Expr.onPaths, Expr.vars, Expr.pvars, ihl, ihr]
  | cmp o l r ihl ihr => simp [Expr.onPaths, Expr.vars, Expr.pvars, ihl, ihr]
  | fn f e ih => exact ih

end Pynare
