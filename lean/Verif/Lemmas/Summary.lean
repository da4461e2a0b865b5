import Verif.Spec.Summary
import Verif.Props.Index
import Verif.Lemmas.SecondSystem
/-!
# Lemmas for the tables of solutions
-/

namespace Pynare

set_option linter.unusedSectionVars false

/-- `argsort` gives the positions that sort a list -/
theorem argsort_sorts (xs : List Nat) : ((argsort xs).map fun i => xs[i]?.getD 0).Perm xs ∧
    ((argsort xs).map fun i => xs[i]?.getD 0).Pairwise (· ≤ ·) ∧ ∀ i ∈ argsort xs, i < xs.length := by
  obtain ⟨p1, p2⟩ := foldr_insert_spec ((List.range xs.length).map fun i => (xs[i]?.getD 0, i))
  change (sortedPairs xs).Perm _ at p1
  change (sortedPairs xs).Pairwise _ at p2
  have hm : ∀ q ∈ sortedPairs xs, q.1 = xs[q.2]?.getD 0 ∧ q.2 < xs.length := by
    intro q hq
    obtain ⟨i, hi, rfl⟩ := List.mem_map.mp (p1.mem_iff.mp hq)
    exact ⟨rfl, List.mem_range.mp hi⟩
  have e : ((argsort xs).map fun i => xs[i]?.getD 0) = (sortedPairs xs).map Prod.fst := by
    rw [argsort_eq, List.map_map]
    exact List.map_congr_left fun q hq => (hm q hq).1.symm
  refine ⟨?_, ?_, ?_⟩
  · rw [e]
    refine (p1.map Prod.fst).trans ?_
    rw [map_range_getD]
  · rw [e]
    exact List.pairwise_map.mpr p2
  · intro i hi
    rw [argsort_eq] at hi
    obtain ⟨q, hq, rfl⟩ := List.mem_map.mp hi
    exact (hm q hq).2

theorem sel_pairwise_le (t : Typer) (p : Nat → Bool) : (t.sel p).Pairwise (· ≤ ·) :=
  List.Pairwise.filter _ ((List.pairwise_lt_range (n := t.n)).imp fun h => Nat.le_of_lt h)

section
variable {t : Typer} (hp : t.drOrder.Perm (List.range t.n))

include hp

theorem orderedStates_perm : t.orderedStates.Perm t.state := by
  unfold Typer.orderedStates Typer.state Typer.sel
  exact hp.filter _

theorem filter_states : (t.drOrder.filter fun c => t.state.contains c) = t.orderedStates := by
  unfold Typer.orderedStates
  refine List.filter_congr fun c hc => ?_
  have hc : c < t.n := List.mem_range.mp (hp.mem_iff.mp hc)
  rw [Bool.eq_iff_iff, List.contains_iff_mem]
  unfold Typer.state
  rw [Typer.mem_sel]
  exact ⟨fun h => h.2, fun h => ⟨hc, h⟩⟩

/-- the states in order of declaration, found among those in decision-rule order -/
theorem stIdx_states : (t.stIdx.map t.stateAt) = t.state ∧ ∀ q ∈ t.stIdx, q < t.state.length := by
  obtain ⟨h1, h2, h3⟩ := argsort_sorts t.orderedStates
  unfold Typer.stIdx
  rw [filter_states hp]
  have hperm := orderedStates_perm hp
  refine ⟨?_, fun q hq => hperm.length_eq ▸ h3 q hq⟩
  refine (h1.trans hperm).eq_of_pairwise ?_ h2 (sel_pairwise_le t _)
  intro a b _ _ h h'
  exact Nat.le_antisymm h h'

theorem stIdx_length : t.stIdx.length = t.state.length := by
  have := congrArg List.length (stIdx_states hp).1
  simpa using this

theorem dc_eq : t.dcOrder = (List.range t.n).map fun v => t.dcOrder[v]?.getD 0 := by
  have hl := (C30_inverse t hp).1
  refine List.ext_getElem (by simp [hl]) fun i h1 h2 => ?_
  simp [List.getElem?_eq_getElem h1]

theorem dc_at {v : Nat} (hv : v < t.n) : t.dcOrder[v]?.getD 0 < t.n ∧ t.varAt (t.dcOrder[v]?.getD 0) = v := by
  obtain ⟨i, h1, h2⟩ := (C30_inverse t hp).2.1 v hv
  rw [h1]
  have hl : t.drOrder.length = t.n := by simpa using hp.length_eq
  refine ⟨?_, ?_⟩
  · have := (List.getElem?_eq_some_iff.mp h2).1
    show i < t.n
    omega
  · show t.drOrder[i]?.getD 0 = v
    rw [h2]; rfl

theorem dc_lt : (t.dcOrder.all fun c => decide (c < t.n)) = true := by
  rw [List.all_eq_true]
  intro c hc
  rw [dc_eq hp] at hc
  obtain ⟨v, hv, rfl⟩ := List.mem_map.mp hc
  simpa using (dc_at hp (List.mem_range.mp hv)).1

/-- an entry of a row in decision-rule order, picked in order of declaration -/
theorem pick_row {V : Type} (f : Nat → V) :
    (t.dcOrder.flatMap fun c => (((List.range t.n).map f)[c]?).toList) =
      (List.range t.n).map fun v => f (t.dcOrder[v]?.getD 0) := by
  have e : ∀ c ∈ t.dcOrder, (((List.range t.n).map f)[c]?).toList = [f c] := by
    intro c hc
    have := List.all_eq_true.mp (dc_lt hp) c hc
    have hc' : c < t.n := by simpa using this
    rw [List.getElem?_map, List.getElem?_range hc']
    rfl
  have e2 : (t.dcOrder.flatMap fun c => (((List.range t.n).map f)[c]?).toList) = t.dcOrder.map f := by
    rw [← List.flatMap_singleton' (t.dcOrder.map f), List.flatMap_map]
    rw [List.flatMap_congr e]
  rw [e2]
  conv_lhs => rw [dc_eq hp]
  rw [List.map_map]
  rfl

end

/-! ### lists -/

theorem okBind {α β : Type} (a : α) (f : α → Except Err β) : (Except.ok a >>= f) = f a := rfl


theorem zip_flatMap {α β γ δ : Type} (f : α → List γ) (g : β → List δ) (h : ∀ a b, (f a).length = (g b).length) :
    ∀ (xs : List α) (ys : List β), (xs.flatMap f).zip (ys.flatMap g) = (xs.zip ys).flatMap fun p => (f p.1).zip (g p.2)
  | [], _ => by simp
  | x :: xs, [] => by simp
  | x :: xs, y :: ys => by
    simp only [List.flatMap_cons, List.zip_cons_cons]
    rw [List.zip_append (h x y), zip_flatMap f g h xs ys]

/-- the numbers below a product, by quotient and remainder -/
theorem range_product (n m : Nat) : ((List.range m).flatMap fun a => (List.range n).map fun b => n * a + b) =
    List.range (n * m) := by
  induction m with
  | zero => simp
  | succ m ih =>
    rw [List.range_succ, List.flatMap_append, ih, Nat.mul_succ, List.range_add]
    simp

theorem zip_replicate_true {α : Type} (xs : List α) :
    (((xs.zip (List.replicate xs.length true)).filter Prod.snd).map Prod.fst) = xs := by
  induction xs with
  | nil => rfl
  | cons x xs ih => simpa [List.replicate_succ] using ih

theorem masked_true {α : Type} {xs : List α} {n : Nat} (h : xs.length = n) : masked xs (List.replicate n true) = .ok xs := by
  subst h
  unfold masked
  rw [if_pos (by simp), zip_replicate_true]

theorem mapM_masked_true {α : Type} {n : Nat} : ∀ {rows : List (List α)}, (∀ r ∈ rows, r.length = n) →
    (rows.mapM fun row => masked row (List.replicate n true)) = .ok rows
  | [], _ => rfl
  | r :: rows, h => by
    rw [List.mapM_cons, masked_true (h r (by simp)), okBind, mapM_masked_true fun r hr => h r (by simp [hr])]
    rfl

section
variable {V : Type} [CommRing V] [LinearOrder V]

/-- without a threshold all columns are shown, unless there is nothing but zeros -/
theorem summarizeArray_all {n : Nat} {rows : List (List V)} {labels : List String} (hr : ∀ r ∈ rows, r.length = n)
    (hl : labels.length = n) {x : V} (hx : x ∈ rows.flatten) (h0 : x ≠ 0) :
    summarizeArray n rows labels none = .ok (labels, rows) := by
  unfold summarizeArray
  simp only []
  rw [mapM_masked_true hr, okBind, masked_true hl, okBind, if_neg (by simp), if_neg, if_neg]
  · intro h
    have := List.all_eq_true.mp h x hx
    exact h0 (by simpa using this)
  · intro h
    rw [h] at hx
    cases hx

theorem summarizeArray_zero {n : Nat} {rows : List (List V)} {labels : List String} (hr : ∀ r ∈ rows, r.length = n)
    (hl : labels.length = n) (hne : rows.flatten ≠ []) (h0 : ∀ x ∈ rows.flatten, x = 0) :
    summarizeArray n rows labels none = .error .overflowError := by
  unfold summarizeArray
  simp only []
  rw [mapM_masked_true hr, okBind, masked_true hl, okBind, if_neg (by simp), if_neg hne, if_pos]
  rw [List.all_eq_true]
  intro x hx
  simpa using h0 x hx

end

/-! ### blocks of rows -/

section
variable {V : Type} [CommRing V] [LinearOrder V] {t : Typer} (hp : t.drOrder.Perm (List.range t.n))

include hp

/-- the columns of an array, picked in order of declaration -/
theorem pick_cols {a : Arr V} (hr : a.r = t.n) {α : Type} (cs : List α) (pos : α → Nat) {b : Arr V}
    (hb : b.r = a.r ∧ b.c = cs.length ∧ ∀ i j, b.e i j = a.e i ((cs.map pos)[j]?.getD 0)) {f : Nat → α → V}
    (h : ∀ p < t.n, ∀ c ∈ cs, a.e p (pos c) = f (t.varAt p) c) :
    (b.colList.map fun row => t.dcOrder.flatMap fun c => (row[c]?).toList) = cs.map fun c => overVars t fun v => f v c := by
  obtain ⟨b1, b2, b3⟩ := hb
  unfold Arr.colList
  rw [List.map_map, b1, b2, hr]
  refine List.ext_getElem (by simp) fun k h1 h2 => ?_
  have hk : k < cs.length := by simpa using h2
  simp only [List.getElem_map, List.getElem_range, Function.comp]
  rw [pick_row hp]
  unfold overVars
  refine List.map_congr_left fun v hv => ?_
  obtain ⟨q1, q2⟩ := dc_at hp (List.mem_range.mp hv)
  rw [b3, List.getElem?_map, List.getElem?_eq_getElem hk]
  show a.e _ (pos cs[k]) = _
  rw [h _ q1 _ (List.getElem_mem hk), q2]

/-- the same for all columns of an array -/
theorem pick_all {a : Arr V} (hr : a.r = t.n) {f : Nat → Nat → V}
    (h : ∀ p < t.n, ∀ j < a.c, a.e p j = f (t.varAt p) j) :
    (a.colList.map fun row => t.dcOrder.flatMap fun c => (row[c]?).toList) =
      (List.range a.c).map fun j => overVars t fun v => f v j := by
  unfold Arr.colList
  rw [List.map_map, hr]
  refine List.map_congr_left fun j hj => ?_
  show (t.dcOrder.flatMap fun c => _) = _
  rw [pick_row hp]
  unfold overVars
  refine List.map_congr_left fun v hv => ?_
  obtain ⟨q1, q2⟩ := dc_at hp (List.mem_range.mp hv)
  rw [h _ q1 _ (List.mem_range.mp hj), q2]

end

/-! ### the marks of the second-order table -/

theorem cutList_flatten {α : Type} : ∀ (bs : List (List α)), cutList (bs.map List.length) bs.flatten = bs
  | [] => rfl
  | b :: bs => by
    simp only [List.map_cons, List.flatten_cons, cutList]
    rw [List.take_left, List.drop_left, cutList_flatten bs]

section
variable {V : Type} [CommRing V] [LinearOrder V]

/-- whether a row has an entry that is not below `eps` -/
def reaches (eps : V) (row : List V) : Bool := row.any fun x => !decide (x < eps)

theorem not_all_below (eps : V) (row : List V) : (!row.all fun x => decide (x < eps)) = reaches eps row := by
  unfold reaches
  rw [List.not_all_eq_any_not]

theorem threshLocs_eq (eps : V) (r0 rl : List V) (mid : List (List V)) :
    threshLocs eps (r0 :: mid ++ [rl]) = true :: mid.map (reaches eps) ++ [true] := by
  unfold threshLocs
  refine List.ext_getElem (by simp) fun i h1 h2 => ?_
  simp only [List.getElem_mapIdx, List.getElem_map, not_all_below]
  rcases Nat.eq_zero_or_pos i with rfl | hi
  · simp
  · obtain ⟨j, rfl⟩ : ∃ j, i = j + 1 := ⟨i - 1, by omega⟩
    simp only [List.cons_append, List.getElem_cons_succ]
    by_cases hj : j < mid.length
    · rw [List.getElem_append_left hj, List.getElem_append_left (by simpa using hj)]
      simp; omega
    · have : j = mid.length := by simp at h2; omega
      subst this
      rw [List.getElem_append_right (by simp), List.getElem_append_right (by simp)]
      simp

/-- the marked lines of all rows -/
theorem marks (eps : V) (e0 el : String × List V) (mid : List (String × List V)) :
    (((e0 :: mid ++ [el]).map Prod.fst).zip (((e0 :: mid ++ [el]).map Prod.snd).map Line.nums)).zip
      (threshLocs eps ((e0 :: mid ++ [el]).map Prod.snd)) =
    (asLine e0, true) :: mid.map (fun e => (asLine e, reaches eps e.2)) ++ [(asLine el, true)] := by
  have e : (e0 :: mid ++ [el]).map Prod.snd = e0.2 :: mid.map Prod.snd ++ [el.2] := by simp
  rw [e, threshLocs_eq]
  have e' : ((e0 :: mid ++ [el]).map Prod.fst).zip (((e0.2 :: mid.map Prod.snd ++ [el.2])).map Line.nums) =
      (e0 :: mid ++ [el]).map asLine := by
    rw [← e, List.map_map]
    induction (e0 :: mid ++ [el]) with
    | nil => rfl
    | cons x xs ih => simpa [asLine] using ih
  rw [e']
  have e3 : ∀ mid : List (String × List V), (mid.map asLine).zip ((mid.map Prod.snd).map (reaches eps)) =
      mid.map fun e => (asLine e, reaches eps e.2) := by
    intro mid
    induction mid with
    | nil => rfl
    | cons x xs ih => simpa using ih
  simp only [List.cons_append, List.map_cons, List.zip_cons_cons, List.map_append]
  rw [List.zip_append (by simp), e3]
  rfl

theorem filter_marks (eps : V) (rows : List (String × List V)) :
    (((rows.map fun e => (asLine e, reaches eps e.2)).filter Prod.snd).map Prod.fst) = (reaching eps rows).map asLine := by
  unfold reaching reaches
  induction rows with
  | nil => rfl
  | cons r rows ih =>
    simp only [List.map_cons, List.filter_cons]
    split <;> simp_all

/-- the rows shown -/
theorem filter_rows (eps : V) (r0 rl : List V) (mid : List (String × List V)) :
    (((r0 :: mid.map Prod.snd ++ [rl]).zip (true :: (mid.map Prod.snd).map (reaches eps) ++ [true])).filter Prod.snd).map Prod.fst =
      r0 :: (reaching eps mid).map Prod.snd ++ [rl] := by
  have e : ((((mid.map Prod.snd).zip ((mid.map Prod.snd).map (reaches eps))).filter Prod.snd).map Prod.fst) =
      (reaching eps mid).map Prod.snd := by
    unfold reaching
    induction mid with
    | nil => rfl
    | cons r rows ih =>
      simp only [List.map_cons, List.zip_cons_cons, List.filter_cons]
      rw [show (r.2.any fun x => !decide (x < eps)) = reaches eps r.2 from rfl]
      split <;> simp_all
  simp only [List.cons_append, List.zip_cons_cons, List.filter_cons, if_true, List.map_cons]
  rw [List.zip_append (by simp), List.filter_append, List.map_append, e]
  rfl

end

end Pynare
