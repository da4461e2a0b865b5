import Verif.Spec.VarArray
import Verif.Lemmas.Build
import Verif.Props.ModelObj
/-!
# C176: collections of variables; C177: printed variables
-/

namespace Pynare

variable {V : Type}

/-! ### C176 -/

theorem arr_names : ∀ (xs : List VarItem) (ns : List String), makeAll VarItem.getName xs = .ok ns ↔
    List.Forall₂ (fun x n => Named n x) xs ns
  | [], ns => by simp [makeAll]
  | .other :: xs, ns => by
    simp only [makeAll, VarItem.getName]
    constructor
    · intro h; cases h
    · intro h
      cases h with
      | cons h1 _ => obtain ⟨t, ht⟩ := h1; cases ht
  | .var n t :: xs, ns => by
    simp only [makeAll, VarItem.getName, exc_bind]
    rw [Except.bind_ok_iff]
    constructor
    · rintro ⟨l, hl, h⟩
      cases h
      exact .cons ⟨t, rfl⟩ ((arr_names xs l).mp hl)
    · intro h
      cases h with
      | cons h1 h2 =>
        obtain ⟨t', ht⟩ := h1
        cases ht
        exact ⟨_, (arr_names xs _).mpr h2, rfl⟩

theorem arr_types : ∀ (xs : List VarItem) (ts : List String), makeAll VarItem.getType xs = .ok ts ↔
    List.Forall₂ (fun x t => OfType t x) xs ts
  | [], ns => by simp [makeAll]
  | .other :: xs, ns => by
    simp only [makeAll, VarItem.getType]
    constructor
    · intro h; cases h
    · intro h
      cases h with
      | cons h1 _ => obtain ⟨t, ht⟩ := h1; cases ht
  | .var n t :: xs, ns => by
    simp only [makeAll, VarItem.getType, exc_bind]
    rw [Except.bind_ok_iff]
    constructor
    · rintro ⟨l, hl, h⟩
      cases h
      exact .cons ⟨n, rfl⟩ ((arr_types xs l).mp hl)
    · intro h
      cases h with
      | cons h1 h2 =>
        obtain ⟨t', ht⟩ := h1
        cases ht
        exact ⟨_, (arr_types xs _).mpr h2, rfl⟩

theorem arr_names_err : ∀ (xs : List VarItem) (e : Err), makeAll VarItem.getName xs = .error e → e = .typeError
  | [], e, h => by cases h
  | .other :: xs, e, h => by
    simp only [makeAll, VarItem.getName] at h
    cases h; rfl
  | .var n t :: xs, e, h => by
    simp only [makeAll, VarItem.getName, exc_bind] at h
    cases hx : makeAll VarItem.getName xs with
    | ok l => rw [hx] at h; cases h
    | error e' =>
      rw [hx] at h
      cases h
      exact arr_names_err xs _ hx

theorem arr_types_err : ∀ (xs : List VarItem) (e : Err), makeAll VarItem.getType xs = .error e → e = .typeError
  | [], e, h => by cases h
  | .other :: xs, e, h => by
    simp only [makeAll, VarItem.getType] at h
    cases h; rfl
  | .var n t :: xs, e, h => by
    simp only [makeAll, VarItem.getType, exc_bind] at h
    cases hx : makeAll VarItem.getType xs with
    | ok l => rw [hx] at h; cases h
    | error e' =>
      rw [hx] at h
      cases h
      exact arr_types_err xs _ hx

theorem types_names {t : String} : ∀ (xs : List VarItem), (∀ x ∈ xs, OfType t x) →
    ∃ ns, List.Forall₂ (fun x n => Named n x) xs ns
  | [], _ => ⟨[], .nil⟩
  | x :: xs, h => by
    obtain ⟨n, rfl⟩ := h x (by simp)
    obtain ⟨ns, hn⟩ := types_names xs fun x hx => h x (by simp [hx])
    exact ⟨n :: ns, .cons ⟨t, rfl⟩ hn⟩

/-- **C176**: a collection can be made exactly of variables of one type; otherwise there is a `TypeError`.  It holds the
objects in the order given, has their names in that order, and their type; without objects the type is empty. -/
theorem C176_created (xs : List VarItem) :
    ((∃ a, VarArr.create xs = .ok a) ↔ ∃ t, ∀ x ∈ xs, OfType t x) ∧
    (∀ e, VarArr.create xs = .error e → e = .typeError) ∧
    ∀ a, VarArr.create xs = .ok a → a.items = xs ∧ List.Forall₂ (fun x n => Named n x) xs a.names ∧
      (xs = [] → a.vtype = "") ∧ ∀ x ∈ xs, OfType a.vtype x := by
  have inv : ∀ a, VarArr.create xs = .ok a → a.items = xs ∧ List.Forall₂ (fun x n => Named n x) xs a.names ∧
      (xs = [] → a.vtype = "") ∧ ∀ x ∈ xs, OfType a.vtype x := by
    intro a h
    unfold VarArr.create at h
    simp only [Except.bind_ok_iff, exc_bind] at h
    obtain ⟨ns, hn, ts, ht, h⟩ := h
    have fn := (arr_names xs ns).mp hn
    have ft := (arr_types xs ts).mp ht
    cases ts with
    | nil =>
      cases ft
      cases h
      exact ⟨rfl, fn, fun _ => rfl, fun x hx => by cases hx⟩
    | cons t ts =>
      simp only at h
      split at h
      · cases h
      · rename_i hc
        cases h
        refine ⟨rfl, fn, fun h => ?_, fun x hx => ?_⟩
        · rw [h] at ft; cases ft
        · have hall : ∀ b ∈ t :: ts, t = b := List.count_eq_length.mp (not_not.mp hc)
          obtain ⟨i, hi⟩ := List.getElem?_of_mem hx
          have hl := ft.length_eq
          have hi' : i < (t :: ts).length := by
            rw [← hl]; exact (List.getElem?_eq_some_iff.mp hi).1
          have := (List.forall₂_iff_get.mp ft).2 i (by rw [hl]; exact hi') hi'
          rw [List.get_eq_getElem, List.get_eq_getElem] at this
          rw [(List.getElem?_eq_some_iff.mp hi).2, ← hall _ (List.getElem_mem hi')] at this
          exact this
  refine ⟨⟨fun ⟨a, h⟩ => ⟨a.vtype, (inv a h).2.2.2⟩, fun ⟨t, h⟩ => ?_⟩, fun e h => ?_, inv⟩
  · obtain ⟨ns, hn⟩ := types_names xs h
    have ht := (arr_types xs (xs.map fun _ => t)).mpr (by
      rw [List.forall₂_map_right_iff, List.forall₂_same]
      exact h)
    unfold VarArr.create
    simp only [(arr_names xs ns).mpr hn, ht, exc_bind]
    cases xs with
    | nil => exact ⟨_, rfl⟩
    | cons x xs =>
      simp only [List.map_cons]
      rw [if_neg (not_not.mpr (List.count_eq_length.mpr fun b hb => by
        rcases List.mem_cons.mp hb with rfl | hb
        · rfl
        · obtain ⟨_, -, rfl⟩ := List.mem_map.mp hb; rfl))]
      exact ⟨_, rfl⟩
  · unfold VarArr.create at h
    cases hn : makeAll VarItem.getName xs with
    | error e' =>
      simp only [hn, exc_bind] at h
      cases h
      exact arr_names_err xs _ hn
    | ok ns =>
      cases ht : makeAll VarItem.getType xs with
      | error e' =>
        simp only [hn, ht, exc_bind] at h
        cases h
        exact arr_types_err xs _ ht
      | ok ts =>
        simp only [hn, ht, exc_bind] at h
        cases ts with
        | nil => cases h
        | cons t ts =>
          simp only at h
          split at h
          · cases h; rfl
          · cases h

theorem named_mem {n : String} : ∀ {xs : List VarItem} {ns : List String}, List.Forall₂ (fun x n => Named n x) xs ns →
    (n ∈ ns ↔ ∃ x ∈ xs, Named n x)
  | _, _, .nil => by simp
  | _, _, .cons h hs => by
    obtain ⟨t, rfl⟩ := h
    rw [List.mem_cons, named_mem hs]
    constructor
    · rintro (rfl | ⟨x, hx, h⟩)
      · exact ⟨_, by simp, t, rfl⟩
      · exact ⟨x, by simp [hx], h⟩
    · rintro ⟨x, hx, t', rfl⟩
      rcases List.mem_cons.mp hx with e | hx
      · cases e; exact .inl rfl
      · exact .inr ⟨_, hx, t', rfl⟩

/-- **C176**: a text, or a variable of whatever type, is in a collection exactly if the collection has a variable of that
name; nothing else is ever in it.  Looking up the position of a name (C40) fails with a `KeyError` exactly if the name is
not in the collection. -/
theorem C176_contains (xs : List VarItem) (a : VarArr) (h : VarArr.create xs = .ok a) (n t : String) :
    (a.contains (.str n) = true ↔ ∃ x ∈ xs, Named n x) ∧ (a.contains (.var n t) = true ↔ ∃ x ∈ xs, Named n x) ∧
    a.contains .other = false ∧ (getLoc1 a.names n = .error .keyError ↔ a.contains (.str n) = false) := by
  obtain ⟨-, hn, -⟩ := (C176_created xs).2.2 a h
  have e : a.names.contains n = true ↔ ∃ x ∈ xs, Named n x := by
    rw [List.contains_iff_mem, named_mem hn]
  refine ⟨e, e, rfl, (C40_lookup_one a.names n).2.1.trans ?_⟩
  simp only [VarArr.contains]
  rw [← Bool.not_eq_true, List.contains_iff_mem]

theorem pick_ok (xs : List VarItem) : ∀ (is : List Nat) (ys : List VarItem), pickItems xs is = .ok ys ↔
    List.Forall₂ (fun i y => xs[i]? = some y) is ys
  | [], ys => by simp [pickItems]
  | i :: is, ys => by
    unfold pickItems
    cases hx : xs[i]? with
    | none =>
      simp only
      constructor
      · intro h; cases h
      · intro h
        cases h with
        | cons h1 _ => rw [hx] at h1; cases h1
    | some x =>
      simp only [Except.bind_ok_iff, exc_bind]
      constructor
      · rintro ⟨l, hl, h⟩
        cases h
        exact .cons hx ((pick_ok xs is l).mp hl)
      · intro h
        cases h with
        | cons h1 h2 =>
          rw [hx] at h1
          cases h1
          exact ⟨_, (pick_ok xs is _).mpr h2, rfl⟩

/-- **C176**: choosing variables of a collection by positions that exist never fails; it gives a collection of these
variables in the order of the positions, of the same type unless nothing is chosen. -/
theorem C176_select (xs : List VarItem) (a : VarArr) (h : VarArr.create xs = .ok a) (is : List Nat)
    (hi : ∀ i ∈ is, i < xs.length) :
    ∃ b, a.select is = .ok b ∧ List.Forall₂ (fun i y => xs[i]? = some y) is b.items ∧
      List.Forall₂ (fun i n => a.names[i]? = some n) is b.names ∧ b.vtype = if is = [] then "" else a.vtype := by
  obtain ⟨h1, h2, h3, h4⟩ := (C176_created xs).2.2 a h
  have ex : ∀ is : List Nat, (∀ i ∈ is, i < xs.length) → ∃ ys, List.Forall₂ (fun i y => xs[i]? = some y) is ys := by
    intro is
    induction is with
    | nil => exact fun _ => ⟨[], .nil⟩
    | cons i is ih =>
      intro hi
      obtain ⟨ys, hy⟩ := ih fun j hj => hi j (by simp [hj])
      exact ⟨_, .cons (List.getElem?_eq_getElem (hi i (by simp))) hy⟩
  obtain ⟨ys, hy⟩ := ex is hi
  have mem : ∀ {is : List Nat} {ys : List VarItem}, List.Forall₂ (fun i y => xs[i]? = some y) is ys → ∀ y ∈ ys, y ∈ xs := by
    intro is ys h
    induction h with
    | nil => simp
    | cons h _ ih =>
      intro y hy
      rcases List.mem_cons.mp hy with rfl | hy
      · exact List.mem_of_getElem? h
      · exact ih y hy
  have ty : ∀ y ∈ ys, OfType a.vtype y := fun y hyy => h4 y (mem hy y hyy)
  obtain ⟨b, hb⟩ := (C176_created ys).1.mpr ⟨_, ty⟩
  obtain ⟨g1, g2, g3, g4⟩ := (C176_created ys).2.2 b hb
  refine ⟨b, ?_, by rw [g1]; exact hy, ?_, ?_⟩
  · unfold VarArr.select
    rw [h1]
    simp only [(pick_ok xs is ys).mpr hy, exc_bind]
    exact hb
  · have key : ∀ {is : List Nat} {ys : List VarItem} {ns : List String},
        List.Forall₂ (fun i y => xs[i]? = some y) is ys → List.Forall₂ (fun x n => Named n x) ys ns →
        List.Forall₂ (fun i n => a.names[i]? = some n) is ns := by
      intro is ys ns hh
      induction hh generalizing ns with
      | nil => intro h; cases h; exact .nil
      | cons hx _ ih =>
        intro h
        cases h with
        | cons k1 k2 =>
          refine .cons ?_ (ih k2)
          obtain ⟨hl, hx⟩ := List.getElem?_eq_some_iff.mp hx
          have hl' := hl
          rw [h2.length_eq] at hl'
          have := (List.forall₂_iff_get.mp h2).2 _ hl hl'
          rw [List.get_eq_getElem, List.get_eq_getElem, hx] at this
          obtain ⟨t, e⟩ := this
          obtain ⟨t', e'⟩ := k1
          rw [e] at e'
          cases e'
          exact List.getElem?_eq_some_iff.mpr ⟨hl', rfl⟩
    exact key hy g2
  · cases hy with
    | nil => simp [g3]
    | @cons i y _ _ k1 k2 =>
      rw [if_neg (by simp)]
      obtain ⟨n, hn⟩ := g4 y (by simp)
      obtain ⟨n', hn'⟩ := ty y (by simp)
      rw [hn] at hn'
      exact (VarItem.var.inj hn').2

/-- **C176**: choosing nothing loses the type. -/
theorem C176_empty (a : VarArr) : ∃ b, a.select [] = .ok b ∧ b.vtype = "" := ⟨_, rfl, rfl⟩

/-- a collection of two variables; one of variables of two types is refused -/
example : (∃ a, VarArr.create [.var "c" "endog", .var "k" "endog"] = .ok a ∧ a.contains (.var "k" "stoch") = true) ∧
    VarArr.create [.var "c" "endog", .var "e" "stoch"] = .error .typeError := ⟨⟨_, rfl, rfl⟩, rfl⟩

/-! ### C177 -/

theorem cut_comma {c : Char} : ∀ {x y X Y : Txt}, c ∉ x → c ∉ y → x ++ c :: X = y ++ c :: Y → x = y ∧ X = Y
  | [], [], X, Y, _, _, h => ⟨rfl, by simpa using h⟩
  | [], b :: y, X, Y, _, hy, h => by
    simp only [List.nil_append, List.cons_append, List.cons.injEq] at h
    exact absurd (by simp [h.1]) hy
  | a :: x, [], X, Y, hx, _, h => by
    simp only [List.nil_append, List.cons_append, List.cons.injEq] at h
    exact absurd (by simp [h.1]) hx
  | a :: x, b :: y, X, Y, hx, hy, h => by
    simp only [List.cons_append, List.cons.injEq] at h
    obtain ⟨rfl, h⟩ := h
    obtain ⟨rfl, g⟩ := cut_comma (by simp at hx; exact hx.2) (by simp at hy; exact hy.2) h
    exact ⟨rfl, g⟩

theorem join_cons (a b : Txt) (l : List Txt) : joinTxt ", ".toList (a :: b :: l) = a ++ ',' :: ' ' :: joinTxt ", ".toList (b :: l) := by
  simp [joinTxt, List.intercalate]

theorem join_one (a : Txt) : joinTxt ", ".toList [a] = a := by simp [joinTxt, List.intercalate]

theorem join_inj : ∀ {l l' : List Txt}, (∀ t ∈ l, ',' ∉ t) → (∀ t ∈ l', ',' ∉ t) → l ≠ [] → l' ≠ [] →
    joinTxt ", ".toList l = joinTxt ", ".toList l' → l = l'
  | [], _, _, _, h, _, _ => absurd rfl h
  | _ :: _, [], _, _, _, h, _ => absurd rfl h
  | [a], [b], _, _, _, _, h => by rw [join_one, join_one] at h; rw [h]
  | [a], b :: c :: l, h1, _, _, _, h => by
    rw [join_one, join_cons] at h
    exact absurd (by rw [h]; simp) (h1 a (by simp))
  | a :: c :: l, [b], _, h2, _, _, h => by
    rw [join_one, join_cons] at h
    exact absurd (by rw [← h]; simp) (h2 b (by simp))
  | a :: c :: l, b :: d :: l', h1, h2, _, _, h => by
    rw [join_cons, join_cons] at h
    obtain ⟨rfl, g⟩ := cut_comma (h1 a (by simp)) (h2 b (by simp)) h
    rw [join_inj (fun t ht => h1 t (by simp [ht])) (fun t ht => h2 t (by simp [ht])) (by simp) (by simp)
      (List.cons.inj g).2]

/-- **C177**: a printed endogenous variable shows its name and all the values stored with it: two variables with the same
text have the same name and the same initial, terminal and historical values. -/
theorem C177_endog {shw : V → Txt} (hs : Legible shw) (x y : Endog V) (hx : PlainName x.name) (hy : PlainName y.name)
    (h : x.text shw = y.text shw) :
    x.name = y.name ∧ x.initial = y.initial ∧ x.terminal = y.terminal ∧ x.historical = y.historical := by
  have form : ∀ z : Endog V, z.text shw = "EndogVar(".toList ++ joinTxt ", ".toList (z.name.toList ::
      (match boundText shw "initial=".toList z.initial ++ boundText shw "terminal=".toList z.terminal ++
        boundText shw "historical=".toList z.historical with
        | [] => [[]]
        | b :: bs => b :: bs)) ++ ")".toList := by
    intro z
    unfold Endog.text
    cases boundText shw "initial=".toList z.initial ++ boundText shw "terminal=".toList z.terminal ++
        boundText shw "historical=".toList z.historical with
    | nil =>
      simp only [join_cons, join_one]
      simp [joinTxt]
    | cons b bs => simp only [join_cons]; simp
  have free : ∀ (tag : Txt), ',' ∉ tag → ∀ (o : Option V), ∀ t ∈ boundText shw tag o, ',' ∉ t := by
    intro tag htag o t ht
    cases o with
    | none => cases ht
    | some v =>
      rw [List.mem_singleton.mp ht]
      simp only [List.mem_append, not_or]
      exact ⟨htag, hs.comma v⟩
  have all : ∀ z : Endog V, PlainName z.name → ∀ t ∈ z.name.toList ::
      (match boundText shw "initial=".toList z.initial ++ boundText shw "terminal=".toList z.terminal ++
        boundText shw "historical=".toList z.historical with
        | [] => [[]]
        | b :: bs => b :: bs), ',' ∉ t := by
    intro z hz t ht
    rcases List.mem_cons.mp ht with rfl | ht
    · exact hz.1
    · have : t = [] ∨ t ∈ boundText shw "initial=".toList z.initial ++ boundText shw "terminal=".toList z.terminal ++
          boundText shw "historical=".toList z.historical := by
        revert ht
        split
        · intro ht; exact .inl (List.mem_singleton.mp ht)
        · rename_i e; rw [e]; exact .inr
      rcases this with rfl | h
      · simp
      · rcases List.mem_append.mp h with h | h
        · rcases List.mem_append.mp h with h | h
          · exact free _ (by decide) _ t h
          · exact free _ (by decide) _ t h
        · exact free _ (by decide) _ t h
  rw [form, form] at h
  have h := join_inj (all x hx) (all y hy) (by simp) (by simp) (List.append_cancel_left (List.append_cancel_right h))
  obtain ⟨h1, h2⟩ := List.cons.inj h
  refine ⟨String.toList_inj.mp h1, ?_⟩
  obtain ⟨_, _, xi, xt, xh⟩ := x
  obtain ⟨_, _, yi, yt, yh⟩ := y
  simp only at h2 ⊢
  have iI := fun v w : V => hs.inj v w
  cases xi <;> cases xt <;> cases xh <;> cases yi <;> cases yt <;> cases yh <;>
    simp [boundText] at h2 ⊢ <;> first | done | exact iI _ _ h2 | exact ⟨iI _ _ h2.1, iI _ _ h2.2⟩ |
      exact ⟨iI _ _ h2.1, iI _ _ h2.2.1, iI _ _ h2.2.2⟩

/-- **C177**: an endogenous variable is never printed without a value. -/
theorem C177_bound [Zero V] (x : String) (ll : Option (List Int)) (i t h : Option V) :
    (Endog.create x ll i t h).initial ≠ none ∨ (Endog.create x ll i t h).terminal ≠ none ∨
      (Endog.create x ll i t h).historical ≠ none := by
  cases t <;> cases h <;> simp [Endog.create]

/-- **C177 is false of shocks**: a correlation of zero is printed as a missing covariance, and a covariance is not
printed next to a correlation; nor are correlations without the name of the other shock. -/
theorem C177_stoch_false (shw : ℚ → Txt) :
    (⟨"e", "f", some 1, some 0, none⟩ : Stoch ℚ).text shw = (⟨"e", "f", some 1, none, none⟩ : Stoch ℚ).text shw ∧
    (⟨"e", "f", some 1, some 1, some 2⟩ : Stoch ℚ).text shw = (⟨"e", "f", some 1, some 1, none⟩ : Stoch ℚ).text shw ∧
    (⟨"e", "", some 1, some 1, none⟩ : Stoch ℚ).text shw = (⟨"e", "", some 1, none, none⟩ : Stoch ℚ).text shw := by
  refine ⟨?_, ?_, ?_⟩ <;> simp [Stoch.text]

theorem optText_inj {shw : V → Txt} (hs : Legible shw) : ∀ {a b : Option V}, optText shw a = optText shw b → a = b
  | none, none, _ => rfl
  | none, some b, h => absurd h.symm (hs.none b)
  | some a, none, h => absurd h (hs.none a)
  | some a, some b, h => by rw [hs.inj a b h]

theorem optText_comma {shw : V → Txt} (hs : Legible shw) : ∀ (a : Option V), ',' ∉ optText shw a
  | none => show ',' ∉ "None".toList by decide
  | some a => hs.comma a

theorem stoch_text [Zero V] [DecidableEq V] (shw : V → Txt) (s : Stoch V) :
    s.text shw = "StochVar(".toList ++ joinTxt ", ".toList (s.name.toList :: ("variance=".toList ++ optText shw s.variance) ::
      if s.other = "" then [] else
        if s.corr ≠ none ∧ s.corr ≠ some 0 then
          ["corr(".toList ++ s.name.toList, s.other.toList ++ ")=".toList ++ optText shw s.corr]
        else ["cov(".toList ++ s.name.toList, s.other.toList ++ ")=".toList ++ optText shw s.cov]) ++ ")".toList := by
  unfold Stoch.text
  by_cases ho : s.other = ""
  · rw [if_neg (not_not.mpr ho), if_pos ho]
    simp only [join_cons, join_one]
    simp
  · by_cases hc : s.corr ≠ none ∧ s.corr ≠ some 0
    · rw [if_pos ho, if_neg ho, if_pos hc]
      simp only [join_cons, join_one, if_pos hc]
      simp
    · rw [if_pos ho, if_neg ho, if_neg hc]
      simp only [if_neg hc, join_cons, join_one]
      simp

/-- **C177**, the part that holds of shocks (partial: for shocks as in `Shown`): two shocks with the same text have the
same name, variance, second shock, correlation and covariance. -/
theorem C177_stoch_partial [Zero V] [DecidableEq V] {shw : V → Txt} (hs : Legible shw) (x y : Stoch V)
    (hx : PlainName x.name ∧ PlainName x.other) (hy : PlainName y.name ∧ PlainName y.other) (sx : Shown x) (sy : Shown y)
    (h : x.text shw = y.text shw) : x = y := by
  have all : ∀ z : Stoch V, PlainName z.name ∧ PlainName z.other → ∀ t ∈ z.name.toList ::
      ("variance=".toList ++ optText shw z.variance) :: (if z.other = "" then [] else
        if z.corr ≠ none ∧ z.corr ≠ some 0 then
          ["corr(".toList ++ z.name.toList, z.other.toList ++ ")=".toList ++ optText shw z.corr]
        else ["cov(".toList ++ z.name.toList, z.other.toList ++ ")=".toList ++ optText shw z.cov]), ',' ∉ t := by
    intro z hz t ht
    have c1 : ',' ∉ z.name.toList := hz.1.1
    have c2 : ',' ∉ z.other.toList := hz.2.1
    have c3 := optText_comma hs z.variance
    have c4 := optText_comma hs z.corr
    have c5 := optText_comma hs z.cov
    rcases List.mem_cons.mp ht with rfl | ht
    · exact c1
    rcases List.mem_cons.mp ht with rfl | ht
    · simp [c3]
    split at ht
    · cases ht
    · split at ht
      · rcases List.mem_cons.mp ht with rfl | ht
        · simp [c1]
        · rw [List.mem_singleton.mp ht]; simp [c2, c4]
      · rcases List.mem_cons.mp ht with rfl | ht
        · simp [c1]
        · rw [List.mem_singleton.mp ht]; simp [c2, c5]
  rw [stoch_text, stoch_text] at h
  have h0 := join_inj (all x hx) (all y hy) (by simp) (by simp) (List.append_cancel_left (List.append_cancel_right h))
  clear h
  obtain ⟨h1, h0⟩ := List.cons.inj h0
  obtain ⟨h2, h⟩ := List.cons.inj h0
  clear h0
  have e1 : x.name = y.name := String.toList_inj.mp h1
  have e2 : x.variance = y.variance := optText_inj hs (List.append_cancel_left h2)
  have last : ∀ {a b : String} {o o' : Option V}, PlainName a → PlainName b →
      a.toList ++ ")=".toList ++ optText shw o = b.toList ++ ")=".toList ++ optText shw o' → a = b ∧ o = o' := by
    intro a b o o' ha hb h
    rw [List.append_assoc, List.append_assoc] at h
    obtain ⟨g1, g2⟩ := cut_comma (c := ')') ha.2 hb.2 h
    exact ⟨String.toList_inj.mp g1, optText_inj hs (List.cons.inj g2).2⟩
  obtain ⟨xn, xo, xv, xc, xw⟩ := x
  obtain ⟨yn, yo, yv, yc, yw⟩ := y
  simp only at e1 e2 h h1 h2 hx hy
  subst e1 e2
  by_cases o1 : xo = "" <;> by_cases o2 : yo = ""
  · obtain ⟨a1, a2⟩ := sx.1 o1
    obtain ⟨b1, b2⟩ := sy.1 o2
    simp only at a1 a2 b1 b2
    rw [o1, o2, a1, a2, b1, b2]
  · rw [if_pos o1, if_neg o2] at h
    split at h <;> cases h
  · rw [if_neg o1, if_pos o2] at h
    split at h <;> cases h
  · rw [if_neg o1, if_neg o2] at h
    replace sx := sx.2 o1
    replace sy := sy.2 o2
    simp only at sx sy
    by_cases k1 : xc ≠ none ∧ xc ≠ some 0 <;> by_cases k2 : yc ≠ none ∧ yc ≠ some 0
    · rw [if_pos k1, if_pos k2] at h
      have g := (List.cons.inj (List.cons.inj h).2).1
      obtain ⟨rfl, rfl⟩ := last hx.2 hy.2 g
      rcases sx with a | ⟨-, a⟩
      · exact absurd a k1.1
      · rcases sy with b | ⟨-, b⟩
        · exact absurd b k1.1
        · rw [a, b]
    · rw [if_pos k1, if_neg k2] at h
      simp at h
    · rw [if_neg k1, if_pos k2] at h
      simp at h
    · rw [if_neg k1, if_neg k2] at h
      have g := (List.cons.inj (List.cons.inj h).2).1
      obtain ⟨rfl, rfl⟩ := last hx.2 hy.2 g
      have a : xc = none := by
        rcases sx with a | ⟨a, -⟩
        · exact a
        · by_contra c; exact k1 ⟨c, a⟩
      have b : yc = none := by
        rcases sy with a | ⟨a, -⟩
        · exact a
        · by_contra c; exact k2 ⟨c, a⟩
      rw [a, b]

/-- **C177**: a printed collection shows the names in order, and the type. -/
theorem C177_collection (a b : VarArr) (ha : ∀ n ∈ a.names, ',' ∉ n.toList ∧ ']' ∉ n.toList ∧ n ≠ "")
    (hb : ∀ n ∈ b.names, ',' ∉ n.toList ∧ ']' ∉ n.toList ∧ n ≠ "") (h : a.text = b.text) :
    a.names = b.names ∧ a.vtype = b.vtype := by
  have free : ∀ (l : List Txt), (∀ t ∈ l, ']' ∉ t) → ']' ∉ joinTxt ", ".toList l := by
    intro l
    induction l with
    | nil => simp [joinTxt]
    | cons x l ih =>
      intro hl
      cases l with
      | nil => rw [join_one]; exact hl x (by simp)
      | cons y l =>
        rw [join_cons]
        simp only [List.mem_append, List.mem_cons, not_or]
        exact ⟨hl x (by simp), by decide, by decide, ih fun t ht => hl t (by simp [ht])⟩
  have f : ∀ z : VarArr, (∀ n ∈ z.names, ',' ∉ n.toList ∧ ']' ∉ n.toList ∧ n ≠ "") →
      ']' ∉ joinTxt ", ".toList (z.names.map String.toList) := by
    intro z hz
    refine free _ fun t ht => ?_
    obtain ⟨n, hn, rfl⟩ := List.mem_map.mp ht
    exact (hz n hn).2.1
  unfold VarArr.text at h
  have h := List.append_cancel_right h
  rw [List.append_assoc, List.append_assoc, List.append_assoc, List.append_assoc] at h
  have h := List.append_cancel_left h
  obtain ⟨g1, g2⟩ := cut_comma (c := ']') (X := ", vtype=".toList ++ a.vtype.toList) (Y := ", vtype=".toList ++ b.vtype.toList)
    (f a ha) (f b hb) h
  refine ⟨?_, String.toList_inj.mp (List.append_cancel_left g2)⟩
  have c : ∀ z : VarArr, (∀ n ∈ z.names, ',' ∉ n.toList ∧ ']' ∉ n.toList ∧ n ≠ "") →
      ∀ t ∈ z.names.map String.toList, ',' ∉ t ∧ t ≠ [] := by
    intro z hz t ht
    obtain ⟨n, hn, rfl⟩ := List.mem_map.mp ht
    exact ⟨(hz n hn).1, by simpa using (hz n hn).2.2⟩
  have nonempty : ∀ (x : Txt) (l : List Txt), x ≠ [] → joinTxt ", ".toList (x :: l) ≠ [] := by
    intro x l hx
    cases l with
    | nil => rwa [join_one]
    | cons y l => rw [join_cons]; simp
  have inj : Function.Injective (List.map String.toList) :=
    List.map_injective_iff.mpr fun s t h => String.toList_inj.mp h
  apply inj
  have ca := c a ha
  have cb := c b hb
  revert g1 ca cb
  generalize a.names.map String.toList = l
  generalize b.names.map String.toList = l'
  intro g ca cb
  cases l with
  | nil => cases l' with
    | nil => rfl
    | cons y l' => exact absurd g.symm (nonempty y l' (cb y (by simp)).2)
  | cons x l => cases l' with
    | nil => exact absurd g (nonempty x l (ca x (by simp)).2)
    | cons y l' => exact join_inj (fun t ht => (ca t ht).1) (fun t ht => (cb t ht).1) (by simp) (by simp) g

/-- a legible way to print two values, and a shock as in `C177_stoch_partial` -/
example : Legible (fun v : Bool => if v then "1".toList else "2".toList) ∧
    PlainName "e" ∧ PlainName "f" ∧ Shown (⟨"e", "f", some 1, some 3, none⟩ : Stoch ℚ) ∧
    (⟨"e", "f", some 1, some 3, none⟩ : Stoch ℚ).text (fun v => (toString v).toList) =
      "StochVar(e, variance=1, corr(e, f)=3)".toList := by
  refine ⟨⟨by decide, by decide, by decide⟩, ⟨by decide, by decide⟩, ⟨by decide, by decide⟩, ⟨by simp, by simp⟩,
    by decide +kernel⟩

#print axioms C176_created
#print axioms C176_contains
#print axioms C176_select
#print axioms C176_empty
#print axioms C177_endog
#print axioms C177_bound
#print axioms C177_stoch_false
#print axioms C177_stoch_partial
#print axioms C177_collection

end Pynare
