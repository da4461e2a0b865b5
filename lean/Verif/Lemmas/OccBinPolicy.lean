import Verif.Lemmas.OccBin
import Verif.Lemmas.Solution
/-!
# Lemmas for the decision rules used with occasionally binding constraints
-/

namespace Pynare

variable {V : Type} [CommRing V]

theorem idxOf?_nodup {l : List Nat} (hn : l.Nodup) {j c : Nat} (h : l[j]? = some c) : l.idxOf? c = some j := by
  obtain ⟨hj, rfl⟩ := List.getElem?_eq_some_iff.mp h
  rw [List.idxOf?, List.findIdx?_eq_some_iff_getElem]
  refine ⟨hj, by simp, ?_⟩
  intro k hk
  have : l[k]'(by omega) ≠ l[j] := by
    intro e
    have := (List.Nodup.getElem_inj_iff hn).mp e
    omega
  simpa using this

theorem idxOf?_not_mem {l : List Nat} {c : Nat} (h : c ∉ l) : l.idxOf? c = none := by
  rw [List.idxOf?, List.findIdx?_eq_none_iff]
  intro x hx
  simp only [beq_eq_false_iff_ne, ne_eq]
  rintro rfl
  exact h hx

/-- columns put in the places of a list -/
theorem sum_scattered {l : List Nat} (hn : l.Nodup) {n : Nat} (hl : ∀ c ∈ l, c < n) (f : Nat → V) (x : Nat → V) :
    (sumTo n fun c => (match l.idxOf? c with | some j => f j | none => 0) * x c) =
      sumTo l.length fun j => f j * x (l[j]?.getD 0) := by
  rw [sumTo_eq, sumTo_eq]
  have inj : Set.InjOn (fun j => l[j]?.getD 0) (Finset.range l.length : Set Nat) := by
    intro a ha b hb e
    have ha : a < l.length := by simpa using ha
    have hb : b < l.length := by simpa using hb
    simp only [List.getElem?_eq_getElem ha, List.getElem?_eq_getElem hb, Option.getD_some] at e
    exact (List.Nodup.getElem_inj_iff hn).mp e
  have sub : (Finset.range l.length).image (fun j => l[j]?.getD 0) ⊆ Finset.range n := by
    intro c hc
    obtain ⟨j, hj, rfl⟩ := Finset.mem_image.mp hc
    have hj : j < l.length := by simpa using hj
    simp only [List.getElem?_eq_getElem hj, Option.getD_some, Finset.mem_range]
    exact hl _ (List.getElem_mem hj)
  rw [← Finset.sum_subset sub, Finset.sum_image inj]
  · refine Finset.sum_congr rfl fun j hj => ?_
    have hj : j < l.length := by simpa using hj
    simp only [List.getElem?_eq_getElem hj, Option.getD_some]
    rw [idxOf?_nodup hn (List.getElem?_eq_getElem hj)]
  · intro c _ hc
    rw [idxOf?_not_mem, zero_mul]
    intro hm
    obtain ⟨j, hj, rfl⟩ := List.getElem_of_mem hm
    exact hc (Finset.mem_image.mpr ⟨j, by simpa using hj, by simp [List.getElem?_eq_getElem hj]⟩)

theorem state_mem_lt {t : Typer} : ∀ c ∈ t.state, c < t.n := fun _ h => (Typer.mem_sel.mp h).1

theorem drState_eq {t : Typer} (hg : ∀ c < t.n, ¬ (t.has 0 c = true ∧ t.has 2 c = true ∧ t.has 1 c = false)) :
    t.drState = t.pureBackward ++ t.mixed := by
  obtain ⟨-, -, -, -, -, b6, -⟩ := C69_blocks t hg
  unfold Typer.drState
  rw [b6, (C31_dr_order_groups_partial t hg).1]
  apply List.ext_getElem
  · simp
  · intro i h1 h2
    simp only [List.getElem_map, List.getElem_range', one_mul]
    have hi : i < (t.pureBackward ++ t.mixed).length := h2
    rw [List.append_assoc, List.append_assoc, List.getElem?_append_right (by omega),
      show t.static.length + i - t.static.length = i by omega, ← List.append_assoc,
      List.getElem?_append_left hi, List.getElem?_eq_getElem hi]
    rfl

theorem drState_perm {t : Typer} (hg : ∀ c < t.n, ¬ (t.has 0 c = true ∧ t.has 2 c = true ∧ t.has 1 c = false)) :
    t.drState.Perm t.state := by
  rw [drState_eq hg]
  have h := perm_filter_append (fun c => !t.has 2 c) t.state
  have e1 : t.state.filter (fun c => !t.has 2 c) = t.pureBackward := by
    unfold Typer.state Typer.pureBackward Typer.sel
    rw [List.filter_filter]
    exact List.filter_congr fun c _ => by cases t.has 0 c <;> cases t.has 2 c <;> rfl
  have e2 : t.state.filter (fun c => !!t.has 2 c) = t.mixed := by
    unfold Typer.state Typer.mixed Typer.sel
    rw [List.filter_filter]
    exact List.filter_congr fun c _ => by cases t.has 0 c <;> cases t.has 2 c <;> rfl
  rw [e1, e2] at h
  exact h

theorem sel_sorted (t : Typer) (p : Nat → Bool) : (t.sel p).Pairwise (· < ·) :=
  List.Pairwise.sublist List.filter_sublist List.pairwise_lt_range

/-- when the states come in the same order in both orders of the variables -/
theorem drState_eq_state_iff {t : Typer}
    (hg : ∀ c < t.n, ¬ (t.has 0 c = true ∧ t.has 2 c = true ∧ t.has 1 c = false)) :
    t.drState = t.state ↔ ∀ b ∈ t.pureBackward, ∀ m ∈ t.mixed, b < m := by
  constructor
  · intro h b hb m hm
    have hs : t.state.Pairwise (· < ·) := sel_sorted t _
    rw [← h, drState_eq hg] at hs
    exact (List.pairwise_append.mp hs).2.2 b hb m hm
  · intro h
    have hs : t.drState.Pairwise (· < ·) := by
      rw [drState_eq hg, List.pairwise_append]
      exact ⟨sel_sorted t _, sel_sorted t _, h⟩
    exact (drState_perm hg).eq_of_pairwise (le := (· < ·)) (fun a b _ _ h1 h2 => by omega) hs (sel_sorted t _)

theorem gyDeclared_ok {t : Typer} {gy g : Arr V} (h : gyDeclared t gy = .ok g) :
    gy.c = t.state.length ∧ g.r = t.n ∧ g.c = t.n ∧ ∀ i c, g.e i c = match t.state.idxOf? c with
      | some j => gy.e (t.dcOrder[i]?.getD 0) j
      | none => 0 := by
  unfold gyDeclared at h
  split at h
  · cases h
  · split at h
    · cases h
    · split at h
      · cases h
      · rename_i h3
        have := Except.ok.inj h
        subst this
        exact ⟨by simpa using h3, rfl, rfl, fun _ _ => rfl⟩

/-- with the states in the same order, the rules used are those of the solution -/
theorem follows_iff {t : Typer} (hp : t.drOrder.Perm (List.range t.n)) (hst : t.drState = t.state)
    {m : Nat} {gy gu g : Arr V} (h : gyDeclared t gy = .ok g) (ym u y : Nat → V) :
    FollowsPolicy t m gy gu ym u y ↔
      ∀ i < t.n, y i = (sumTo t.n fun j => g.e i j * ym j) +
        sumTo m fun k => (guDeclared t gu).e i k * u k := by
  obtain ⟨-, -, -, he⟩ := gyDeclared_ok h
  obtain ⟨hl, hdc, hdr⟩ := C30_inverse t hp
  have rhs : ∀ i c : Nat, t.dcOrder[c]? = some i →
      (sumTo t.n fun j => g.e c j * ym j) + (sumTo m fun k => (guDeclared t gu).e c k * u k) =
      (sumTo t.nBackward fun j => gy.e i j *
        ym (t.drOrder[(t.permute t.drOrder).state[j]?.getD 0]?.getD 0)) +
      sumTo m fun k => gu.e i k * u k := by
    intro i c hi
    congr 1
    · have : (sumTo t.n fun j => g.e c j * ym j) = sumTo t.n fun j =>
          (match t.state.idxOf? j with | some j => gy.e i j | none => 0) * ym j :=
        sumTo_congr fun j _ => by rw [he, hi]; rfl
      rw [this, sum_scattered (sel_nodup' t) state_mem_lt (fun j => gy.e i j), ← (C31_sizes t).2.1]
      refine sumTo_congr fun j hj => ?_
      rw [← hst]
      have hj' : j < (t.permute t.drOrder).state.length := by
        have := (drState_length hp).1
        have e : t.drState.length = (t.permute t.drOrder).state.length := by simp [Typer.drState]
        omega
      unfold Typer.drState
      rw [List.getElem?_map, List.getElem?_eq_getElem hj']
      rfl
    · exact sumTo_congr fun k _ => by simp [guDeclared, hi]
  constructor
  · intro hf c hc
    obtain ⟨i, h1, h2⟩ := hdc c hc
    rw [rhs i c h1]
    exact hf i c h2
  · intro hf i c hic
    have hin : i < t.n := by
      have := (List.getElem?_eq_some_iff.mp hic).1
      rw [hp.length_eq, List.length_range] at this
      exact this
    obtain ⟨k, h1, h2⟩ := hdr i hin
    rw [hic] at h1
    cases h1
    have hc : c < t.n := by
      have := (List.getElem?_eq_some_iff.mp h2).1
      omega
    rw [← rhs i c h2]
    exact hf c hc
where
  sel_nodup' (t : Typer) : t.state.Nodup := Typer.sel_nodup t _

theorem ofJacobian_linear (t : Llx) (m : Nat) (J : Arr V) (D : Nat → V) (i : Nat) (ym y yp u : Nat → V) :
    (Regime.ofJacobian t m J D).linear t.n m i ym y yp u = linearised t m J i ym y yp u := by
  have row : ∀ r (z : Nat → V), (sumTo t.n fun j => (jacobianRow t.toTyper J r).e i j * z j) =
      rowPart t.toTyper J i r z := by
    intro r z
    refine sumTo_congr fun j _ => ?_
    simp only [jacobianRow]
    cases t.cell r j <;> simp
  unfold Regime.linear linearised
  rw [← row, ← row, ← row]
  rfl

theorem ofJacobian_fits (t : Llx) (m : Nat) (J : Arr V) (D : Nat → V) :
    (Regime.ofJacobian t m J D).Fits t.n m :=
  ⟨⟨rfl, rfl⟩, ⟨rfl, rfl⟩, ⟨rfl, rfl⟩, ⟨rfl, rfl⟩⟩

end Pynare
