import Verif.Lemmas.Arr
import Verif.Lemmas.QZ
import Verif.Props.Index
/-!
# The first-order solution in matrix form
-/

namespace Pynare

open Matrix

variable {V : Type} [CommRing V]

set_option linter.unusedSectionVars false

/-- the column number of variable `j` (in decision-rule order) at row `r` -/
def Typer.col (t : Typer) (r j : Nat) : Nat := ((t.permute t.drOrder).cell r j).getD 0

theorem cols_group {t : Typer} {a x : Arr V} {s k r : Nat}
    (h : a.cols ((t.permute t.drOrder).timed (List.range' s k) r) = .ok x)
    (hc : ∀ j < k, (t.permute t.drOrder).has r (s + j) = true) :
    x.r = a.r ∧ x.c = k ∧ ∀ i j, j < k → x.e i j = a.e i (t.col r (s + j)) := by
  have ht : (t.permute t.drOrder).timed (List.range' s k) r =
      (List.range' s k).map fun j => t.col r j := by
    unfold Typer.timed
    have : ∀ l : List Nat, (∀ j ∈ l, (t.permute t.drOrder).has r j = true) →
        l.filterMap ((t.permute t.drOrder).cell r) = l.map fun j => t.col r j := by
      intro l
      induction l with
      | nil => intro _; rfl
      | cons j l ih =>
        intro hl
        have hj := hl j (List.mem_cons_self ..)
        obtain ⟨v, hv⟩ := Option.isSome_iff_exists.mp hj
        rw [List.filterMap_cons, hv, List.map_cons, ih fun j' hj' => hl j' (List.mem_cons_of_mem _ hj')]
        simp [Typer.col, hv]
    refine this _ ?_
    intro j hj
    rw [List.mem_range'_1] at hj
    have := hc (j - s) (by omega)
    rwa [Nat.add_sub_cancel' hj.1] at this
  rw [ht] at h
  obtain ⟨h1, h2, h3⟩ := Arr.cols_ok h
  refine ⟨h1, by simpa using h2, ?_⟩
  intro i j hj
  have := congrFun (congrFun (h3 (α := Unit) (β := Unit) (fun _ => i) (fun _ => j)) ()) ()
  simp only [Arr.blk_apply] at this
  rw [this]
  simp [hj]

/-- which cells of the table in decision-rule order are filled -/
structure Groups (t : Typer) : Prop where
  n : (t.permute t.drOrder).n = t.n
  total : t.static.length + t.pureBackward.length + t.mixed.length + t.pureForward.length = t.n
  static : (t.permute t.drOrder).static = List.range' 0 t.static.length
  pureBackward : (t.permute t.drOrder).pureBackward =
    List.range' t.static.length t.pureBackward.length
  pureForward : (t.permute t.drOrder).pureForward =
    List.range' (t.static.length + t.pureBackward.length + t.mixed.length) t.pureForward.length
  state : (t.permute t.drOrder).state =
    List.range' t.static.length (t.pureBackward.length + t.mixed.length)
  forward : (t.permute t.drOrder).forward =
    List.range' (t.static.length + t.pureBackward.length) (t.mixed.length + t.pureForward.length)
  dynamic : (t.permute t.drOrder).dynamic = List.range' t.static.length
    (t.pureBackward.length + t.mixed.length + t.pureForward.length)
  cur : ∀ j < t.n, (t.permute t.drOrder).has 1 j = true
  lag : ∀ j < t.pureBackward.length + t.mixed.length,
    (t.permute t.drOrder).has 0 (t.static.length + j) = true
  lead : ∀ j < t.mixed.length + t.pureForward.length,
    (t.permute t.drOrder).has 2 (t.static.length + t.pureBackward.length + j) = true
  perm : t.drOrder.Perm (List.range t.n)

theorem groups {t : Typer} (hcur : ∀ c < t.n, t.has 1 c = true) : Groups t := by
  have hg : ∀ c < t.n, ¬ (t.has 0 c = true ∧ t.has 2 c = true ∧ t.has 1 c = false) := by
    intro c hc h; have := hcur c hc; rw [h.2.2] at this; cases this
  obtain ⟨b1, b2, b3, b4, b5, b6, b7, b8⟩ := C69_blocks t hg
  have hperm : t.drOrder.Perm (List.range t.n) := by
    rw [(C31_dr_order_groups_partial t hg).1]; exact four_groups_perm t
  refine ⟨b1, (C31_partition t).2.1, b2, b3, b5, b6, b7, b8, ?_, ?_, ?_, hperm⟩
  · intro j hj
    have hl : j < t.drOrder.length := by rw [hperm.length_eq]; simpa using hj
    have hm : t.drOrder[j] ∈ List.range t.n := hperm.mem_iff.mp (List.getElem_mem hl)
    have := hcur _ (List.mem_range.mp hm)
    simpa [Typer.has, Typer.permute, List.getElem?_eq_getElem hl] using this
  · intro j hj
    have : t.static.length + j ∈ (t.permute t.drOrder).state := by
      rw [b6, List.mem_range'_1]; omega
    exact (Typer.mem_sel.mp this).2
  · intro j hj
    have : t.static.length + t.pureBackward.length + j ∈ (t.permute t.drOrder).forward := by
      rw [b7, List.mem_range'_1]; omega
    exact (Typer.mem_sel.mp this).2

theorem bottom_spec (A : Arr V) {n ns nd : Nat} (hA : A.r = n) (hn : n = ns + nd) (hd : 0 < nd) :
    (A.bottom nd).r = nd ∧ (A.bottom nd).c = A.c ∧ ∀ i j, (A.bottom nd).e i j = A.e (i + ns) j := by
  unfold Arr.bottom
  rw [if_neg (by omega)]
  refine ⟨by simp only; omega, rfl, ?_⟩
  intro i j
  have : A.r - nd = ns := by omega
  simp only [this]

/-- the entries of the two arrays of the state space -/
structure Pencil (t : Typer) (A D E : Arr V) : Prop where
  some_state : 0 < t.pureBackward.length + t.mixed.length
  Dr : D.r = (t.pureBackward.length + t.mixed.length + t.pureForward.length) + t.mixed.length
  Dc : D.c = (t.pureBackward.length + t.mixed.length) + (t.mixed.length + t.pureForward.length)
  D11 : ∀ i < t.pureBackward.length + t.mixed.length + t.pureForward.length,
    ∀ j < t.pureBackward.length, D.e i j = A.e (i + t.static.length) (t.col 1 (t.static.length + j))
  D12 : ∀ i < t.pureBackward.length + t.mixed.length + t.pureForward.length, ∀ j < t.mixed.length,
    D.e i (t.pureBackward.length + j) = 0
  D13 : ∀ i < t.pureBackward.length + t.mixed.length + t.pureForward.length,
    ∀ j < t.mixed.length + t.pureForward.length,
    D.e i (t.pureBackward.length + t.mixed.length + j) =
      A.e (i + t.static.length) (t.col 2 (t.static.length + t.pureBackward.length + j))
  D21 : ∀ m < t.mixed.length, ∀ j < t.pureBackward.length + t.mixed.length,
    D.e (t.pureBackward.length + t.mixed.length + t.pureForward.length + m) j =
      if j = m + t.pureBackward.length then 1 else 0
  D22 : ∀ m < t.mixed.length, ∀ j < t.mixed.length + t.pureForward.length,
    D.e (t.pureBackward.length + t.mixed.length + t.pureForward.length + m)
      (t.pureBackward.length + t.mixed.length + j) = 0
  E11 : ∀ i < t.pureBackward.length + t.mixed.length + t.pureForward.length,
    ∀ j < t.pureBackward.length + t.mixed.length,
    E.e i j = - A.e (i + t.static.length) (t.col 0 (t.static.length + j))
  E12 : ∀ i < t.pureBackward.length + t.mixed.length + t.pureForward.length,
    ∀ j < t.mixed.length + t.pureForward.length,
    E.e i (t.pureBackward.length + t.mixed.length + j) =
      - A.e (i + t.static.length) (t.col 1 (t.static.length + t.pureBackward.length + j))
  E21 : ∀ m < t.mixed.length, ∀ j < t.pureBackward.length + t.mixed.length,
    E.e (t.pureBackward.length + t.mixed.length + t.pureForward.length + m) j = 0
  E22 : ∀ m < t.mixed.length, ∀ j < t.mixed.length + t.pureForward.length,
    E.e (t.pureBackward.length + t.mixed.length + t.pureForward.length + m)
      (t.pureBackward.length + t.mixed.length + j) = if j = m then 1 else 0

theorem a0mTilde_spec {t : Typer} (g : Groups t) {A x : Arr V}
    (hs : t.nStatic = t.static.length) (hA : A.r = t.n)
    (hd : 0 < t.pureBackward.length + t.mixed.length + t.pureForward.length)
    (h : a0mTilde t A = .ok x) :
    x.r = t.n - t.static.length ∧ (0 < t.pureBackward.length → x.c = t.pureBackward.length) ∧
    (t.pureBackward.length = 0 → x.c = 1 ∧ ∀ i j, x.e i j = 0) ∧
    ∀ i, ∀ j < t.pureBackward.length,
      x.e i j = A.e (i + t.static.length) (t.col 1 (t.static.length + j)) := by
  have gt := g.total
  unfold a0mTilde at h
  simp only [hs] at h
  rw [Except.bind_ok_iff] at h
  obtain ⟨y, hy, h⟩ := h
  obtain ⟨b1, b2, b3⟩ := bottom_spec A (n := t.n) (ns := t.static.length)
    (nd := t.n - t.static.length) hA (by omega) (by omega)
  rw [g.pureBackward] at hy
  obtain ⟨y1, y2, y3⟩ := cols_group hy (fun j hj => g.cur _ (by omega))
  rw [b1] at y1
  by_cases hp : t.pureBackward.length = 0
  · rw [if_pos (by rw [y2, hp, Nat.mul_zero])] at h
    have := Except.ok.inj h
    subst this
    exact ⟨rfl, by omega, fun _ => ⟨rfl, fun _ _ => rfl⟩, fun i j hj => by omega⟩
  · have : ¬ y.r * y.c = 0 := by
      rw [y1, y2]; exact Nat.mul_ne_zero (by omega) hp
    rw [if_neg this] at h
    have := Except.ok.inj h
    subst this
    refine ⟨y1, fun _ => y2, fun h0 => absurd h0 hp, ?_⟩
    intro i j hj
    rw [y3 i j hj, b3]

theorem Except.bind_eq_ok {α β : Type} {x : Except Err α} {f : α → Except Err β} {b : β}
    (h : (x >>= f) = .ok b) : ∃ a, x = .ok a ∧ f a = .ok b := by
  cases x with
  | error e => cases h
  | ok a => exact ⟨a, rfl, h⟩

theorem bind_ok_of_eq {α β : Type} {x : Except Err α} {a : α} (f : α → Except Err β) (h : x = .ok a) :
    (x >>= f) = f a := by rw [h]; rfl

theorem block_ok {a b c d x : Arr V} (h : Arr.block a b c d = .ok x) :
    a.r = b.r ∧ c.r = d.r ∧ a.c + b.c = c.c + d.c ∧ x.r = a.r + c.r ∧ x.c = a.c + b.c ∧
    (∀ i j, i < a.r → j < a.c → x.e i j = a.e i j) ∧
    (∀ i j, i < a.r → x.e i (a.c + j) = b.e i j) ∧
    (∀ i j, j < c.c → x.e (a.r + i) j = c.e i j) ∧
    (∀ i j, x.e (a.r + i) (c.c + j) = d.e i j) := by
  unfold Arr.block at h
  obtain ⟨t, ht, h⟩ := Except.bind_eq_ok h
  obtain ⟨u, hu, h⟩ := Except.bind_eq_ok h
  obtain ⟨t1, t2, t3, t4, t5⟩ := Arr.hstack_ok ht
  obtain ⟨u1, u2, u3, u4, u5⟩ := Arr.hstack_ok hu
  obtain ⟨v1, v2, v3, v4, v5⟩ := Arr.vstack_ok h
  refine ⟨t1, u1, by rw [← t3, ← u3, v1], by rw [v2, t2, u2], by rw [v3, t3], ?_, ?_, ?_, ?_⟩
  · intro i j hi hj; rw [v4 i j (by omega), t4 i j hj]
  · intro i j hi; rw [v4 i _ (by omega), t5]
  · intro i j hj; rw [← t2, v5, u4 i j hj]
  · intro i j; rw [← t2, v5, u5]

theorem assemblePure_spec {t : Typer} (g : Groups t) {A Ap Am A0p A0m D E : Arr V}
    (hm : t.mixed.length = 0) (p2 : Ap.c = t.mixed.length + t.pureForward.length)
    (p3 : ∀ i j, j < t.mixed.length + t.pureForward.length → Ap.e i j =
      A.e (i + t.static.length) (t.col 2 (t.static.length + t.pureBackward.length + j)))
    (m2 : Am.c = t.pureBackward.length + t.mixed.length)
    (m3 : ∀ i j, j < t.pureBackward.length + t.mixed.length → Am.e i j =
      A.e (i + t.static.length) (t.col 0 (t.static.length + j)))
    (q2 : A0p.c = t.mixed.length + t.pureForward.length)
    (q3 : ∀ i j, j < t.mixed.length + t.pureForward.length → A0p.e i j =
      A.e (i + t.static.length) (t.col 1 (t.static.length + t.pureBackward.length + j)))
    (z1 : A0m.r = t.n - t.static.length)
    (z2 : 0 < t.pureBackward.length → A0m.c = t.pureBackward.length)
    (z3 : t.pureBackward.length = 0 → A0m.c = 1 ∧ ∀ i j, A0m.e i j = 0)
    (z4 : ∀ i, ∀ j < t.pureBackward.length,
      A0m.e i j = A.e (i + t.static.length) (t.col 1 (t.static.length + j)))
    (h : assemblePure Ap Am A0p A0m = .ok (D, E)) (hDE : D.c = E.c) : Pencil t A D E := by
  have gt := g.total
  unfold assemblePure at h
  obtain ⟨D', hD, h⟩ := Except.bind_eq_ok h
  obtain ⟨e, he, h⟩ := Except.bind_eq_ok h
  have := Except.ok.inj h
  simp only [Prod.mk.injEq] at this
  obtain ⟨rfl, rfl⟩ := this
  obtain ⟨d1, d2, d3, d4, d5⟩ := Arr.hstack_ok hD
  obtain ⟨e1, e2, e3, e4, e5⟩ := Arr.hstack_ok he
  have hc : D'.c = e.c := hDE
  rcases Nat.eq_zero_or_pos t.pureBackward.length with h0 | h0
  · have := (z3 h0).1; omega
  have hz := z2 h0
  refine ⟨by omega, by omega, by omega, ?_, ?_, ?_, ?_, ?_, ?_, ?_, ?_, ?_⟩
  · intro i hi j hj; rw [d4 i j (by omega), z4 i j hj]
  · intro i hi j hj; omega
  · intro i hi j hj
    rw [show t.pureBackward.length + t.mixed.length + j = A0m.c + j by omega, d5, p3 i j hj]
  · intro m hm'; omega
  · intro m hm'; omega
  · intro i hi j hj
    show - e.e i j = _
    rw [e4 i j (by omega), m3 i j hj]
  · intro i hi j hj
    show - e.e i _ = _
    rw [show t.pureBackward.length + t.mixed.length + j = Am.c + j by omega, e5, q3 i j hj]
  · intro m hm'; omega
  · intro m hm'; omega

set_option maxHeartbeats 2000000 in
theorem assembleMixed_spec {t : Typer} (g : Groups t) {A Ap Am A0p A0m D E : Arr V}
    (hs : t.nStatic = t.static.length)
    (p2 : Ap.c = t.mixed.length + t.pureForward.length)
    (p3 : ∀ i j, j < t.mixed.length + t.pureForward.length → Ap.e i j =
      A.e (i + t.static.length) (t.col 2 (t.static.length + t.pureBackward.length + j)))
    (m1 : Am.r = t.n - t.static.length) (m2 : Am.c = t.pureBackward.length + t.mixed.length)
    (m3 : ∀ i j, j < t.pureBackward.length + t.mixed.length → Am.e i j =
      A.e (i + t.static.length) (t.col 0 (t.static.length + j)))
    (q2 : A0p.c = t.mixed.length + t.pureForward.length)
    (q3 : ∀ i j, j < t.mixed.length + t.pureForward.length → A0p.e i j =
      A.e (i + t.static.length) (t.col 1 (t.static.length + t.pureBackward.length + j)))
    (z1 : A0m.r = t.n - t.static.length)
    (z2 : 0 < t.pureBackward.length → A0m.c = t.pureBackward.length)
    (z3 : t.pureBackward.length = 0 → A0m.c = 1 ∧ ∀ i j, A0m.e i j = 0)
    (z4 : ∀ i, ∀ j < t.pureBackward.length,
      A0m.e i j = A.e (i + t.static.length) (t.col 1 (t.static.length + j)))
    (hm : 0 < t.mixed.length)
    (h : assembleMixed t Ap Am A0p A0m = .ok (D, E)) : Pencil t A D E := by
  have gt := g.total
  obtain ⟨hnf, hnb, hnm, hnb', hnf', _⟩ := C31_sizes t
  unfold assembleMixed at h
  obtain ⟨⟨A0m', Im⟩, hp, h⟩ := Except.bind_eq_ok h
  obtain ⟨D', hD, h⟩ := Except.bind_eq_ok h
  obtain ⟨E', hE, h⟩ := Except.bind_eq_ok h
  have := Except.ok.inj h
  simp only [Prod.mk.injEq] at this
  obtain ⟨rfl, rfl⟩ := this
  have hpad : A0m'.r = t.n - t.static.length ∧ (0 < t.pureBackward.length →
        A0m'.c = t.pureBackward.length + t.mixed.length) ∧
      (t.pureBackward.length = 0 → A0m'.c = 1) ∧
      (∀ i, ∀ j < t.pureBackward.length,
        A0m'.e i j = A.e (i + t.static.length) (t.col 1 (t.static.length + j))) ∧
      (∀ i j, A0m'.e i (t.pureBackward.length + j) = 0) ∧
      Im = Arr.eye t.mixed.length (t.pureBackward.length + t.mixed.length) t.pureBackward.length := by
    unfold padded at hp
    have hdiff : t.n - (t.nForward + t.nStatic) = t.pureBackward.length := by omega
    simp only [hdiff] at hp
    rcases Nat.eq_zero_or_pos t.pureBackward.length with h0 | h0
    · rw [if_neg (by omega)] at hp
      have := Except.ok.inj hp
      simp only [Prod.mk.injEq] at this
      obtain ⟨rfl, rfl⟩ := this
      obtain ⟨c1, c2⟩ := z3 h0
      exact ⟨z1, by omega, fun _ => c1, z4, fun i j => c2 i _, by rw [hnb', hnm, h0]⟩
    · rw [if_pos (by omega)] at hp
      obtain ⟨B, hB, hp⟩ := Except.bind_eq_ok hp
      have := Except.ok.inj hp
      simp only [Prod.mk.injEq] at this
      obtain ⟨rfl, rfl⟩ := this
      obtain ⟨b1, b2, b3, b4, b5⟩ := Arr.hstack_ok hB
      have hz := z2 h0
      refine ⟨by omega, ?_, by omega, ?_, ?_, by rw [hnb', hnm]⟩
      · intro _; rw [b3, hz]; simp [Arr.zeros, hnm]
      · intro i j hj; rw [b4 i j (by omega), z4 i j hj]
      · intro i j; rw [← hz, b5]; rfl
  obtain ⟨a1, a2, a2', a3, a4, rfl⟩ := hpad
  obtain ⟨d1, d2, d3, d4, d5, d6, d7, d8, d9⟩ := block_ok hD
  obtain ⟨e1, e2, e3, e4, e5, e6, e7, e8, e9⟩ := block_ok hE
  simp only [Arr.eye, Arr.zeros, Arr.neg] at d2 d3 d4 d5 d6 d7 d8 d9 e1 e2 e3 e4 e5 e6 e7 e8 e9
  have hac : A0m'.c = t.pureBackward.length + t.mixed.length := by omega
  refine ⟨by omega, by omega, by omega, ?_, ?_, ?_, ?_, ?_, ?_, ?_, ?_, ?_⟩
  · intro i hi j hj; rw [d6 i j (by omega) (by omega), a3 i j hj]
  · intro i hi j hj; rw [d6 i _ (by omega) (by omega), a4]
  · intro i hi j hj; rw [← hac, d7 i j (by omega), p3 i j hj]
  · intro m hm' j hj
    rw [show t.pureBackward.length + t.mixed.length + t.pureForward.length + m = A0m'.r + m by omega,
      d8 m j hj]
  · intro m hm' j hj
    rw [show t.pureBackward.length + t.mixed.length + t.pureForward.length + m = A0m'.r + m by omega, d9]
  · intro i hi j hj; rw [e6 i j (by omega) (by omega), m3 i j hj]
  · intro i hi j hj; rw [← m2, e7 i j (by omega), q3 i j hj]
  · intro m hm' j hj
    rw [show t.pureBackward.length + t.mixed.length + t.pureForward.length + m = Am.r + m by omega,
      e8 m j (by omega)]
  · intro m hm' j hj
    rw [show t.pureBackward.length + t.mixed.length + t.pureForward.length + m = Am.r + m by omega,
      show t.pureBackward.length + t.mixed.length + j = t.nBackward + j by omega, e9, Nat.add_zero]

theorem structSpace_spec {la : LinAlg V} {t : Typer} (g : Groups t) {J A D E : Arr V}
    (hs : t.nStatic = t.static.length) (h : structSpace la t J = .ok (D, E, A)) (hA : A.r = t.n)
    (hE : E.r = E.c) (hDE : D.c = E.c) (hn : 0 < E.r) : rotated la t J = .ok A ∧ Pencil t A D E := by
  have gt := g.total
  obtain ⟨hnf, hnb, hnm, hnb', hnf', _⟩ := C31_sizes t
  unfold structSpace at h
  obtain ⟨A', hrot, h⟩ := Except.bind_eq_ok h
  obtain ⟨Ap, hAp, h⟩ := Except.bind_eq_ok h
  obtain ⟨Am, hAm, h⟩ := Except.bind_eq_ok h
  obtain ⟨A0p, hA0p, h⟩ := Except.bind_eq_ok h
  obtain ⟨A0m, hA0m, h⟩ := Except.bind_eq_ok h
  obtain ⟨⟨D', E'⟩, hDE', h⟩ := Except.bind_eq_ok h
  have := Except.ok.inj h
  simp only [Prod.mk.injEq] at this
  obtain ⟨rfl, rfl, rfl⟩ := this
  refine ⟨hrot, ?_⟩
  rw [g.forward] at hAp hA0p
  rw [g.state] at hAm
  obtain ⟨p1, p2, p3⟩ := cols_group hAp g.lead
  obtain ⟨m1, m2, m3⟩ := cols_group hAm g.lag
  obtain ⟨q1, q2, q3⟩ := cols_group hA0p (fun j hj => g.cur _ (by omega))
  have hpos : 0 < t.pureBackward.length + t.mixed.length + t.pureForward.length := by
    rcases Nat.eq_zero_or_pos (t.pureBackward.length + t.mixed.length + t.pureForward.length) with h0 | h0
    · exfalso
      unfold assemble at hDE'
      rw [if_neg (by omega)] at hDE'
      unfold assemblePure at hDE'
      obtain ⟨D'', hD, h⟩ := Except.bind_eq_ok hDE'
      obtain ⟨e, he, h⟩ := Except.bind_eq_ok h
      have := Except.ok.inj h
      simp only [Prod.mk.injEq] at this
      obtain ⟨rfl, rfl⟩ := this
      obtain ⟨e1, e2, e3, e4, e5⟩ := Arr.hstack_ok he
      simp only [Arr.neg] at hE hn
      omega
    · exact h0
  obtain ⟨b1, b2, b3⟩ := bottom_spec A' (n := t.n) (ns := t.static.length)
    (nd := t.n - t.nStatic) hA (by omega) (by omega)
  simp only [b3, b1] at p1 p3 m1 m3 q1 q3
  obtain ⟨z1, z2, z3, z4⟩ := a0mTilde_spec g hs hA hpos hA0m
  unfold assemble at hDE'
  by_cases hmx : t.nMixed > 0
  · rw [if_pos hmx] at hDE'
    exact assembleMixed_spec g hs p2 p3 (by omega) m2 m3 q2 q3 z1 z2 z3 z4 (by omega) hDE'
  · rw [if_neg hmx] at hDE'
    exact assemblePure_spec g (by omega) p2 p3 m2 m3 q2 q3 z1 z2 z3 z4 hDE' hDE

end Pynare
