import Verif.Lemmas.Paths
import Verif.Spec.Solvable
/-!
# When the state space of a model can be built
-/

namespace Pynare

open Matrix

set_option linter.unusedSectionVars false

section
variable {V : Type} [CommRing V]

theorem exc_bind {α β : Type} (a : α) (f : α → Except Err β) : ((Except.ok a : Except Err α) >>= f) = f a := rfl

theorem Arr.cols_some {a : Arr V} {cs : List Nat} (h : ∀ c ∈ cs, c < a.c) : ∃ x, a.cols cs = .ok x := by
  have : (cs.all fun c => decide (c < a.c)) = true := by simpa using h
  exact ⟨_, by unfold Arr.cols; rw [if_pos this]⟩

theorem timed_some {t : Typer} {a : Arr V} (hlt : ∀ r c v, t.cell r c = some v → v < a.c) (o cs : List Nat)
    (r : Nat) : ∃ x, a.cols ((t.permute o).timed cs r) = .ok x := by
  refine Arr.cols_some fun v hv => ?_
  unfold Typer.timed at hv
  obtain ⟨c, -, hc⟩ := List.mem_filterMap.mp hv
  simp only [Typer.permute] at hc
  split at hc
  · exact hlt _ _ _ hc
  · cases hc

theorem Arr.hstack_some {a b : Arr V} (h : a.r = b.r) : ∃ x, a.hstack b = .ok x :=
  ⟨_, by unfold Arr.hstack; rw [if_pos h]⟩

theorem Arr.vstack_some {a b : Arr V} (h : a.c = b.c) : ∃ x, a.vstack b = .ok x :=
  ⟨_, by unfold Arr.vstack; rw [if_pos h]⟩

theorem Arr.dot_some {a b : Arr V} (h : a.c = b.r) : ∃ x, a.dot b = .ok x :=
  ⟨_, by unfold Arr.dot; rw [if_pos h]⟩

theorem Arr.add_some {a b : Arr V} (h : a.r = b.r) (h' : a.c = b.c) : ∃ x, a.add b = .ok x :=
  ⟨_, by unfold Arr.add; rw [if_pos ⟨h, h'⟩]⟩

theorem Arr.block_some {a b c d : Arr V} (h1 : a.r = b.r) (h2 : c.r = d.r) (h3 : a.c + b.c = c.c + d.c) :
    ∃ x, Arr.block a b c d = .ok x := by
  obtain ⟨t, ht⟩ := Arr.hstack_some h1
  obtain ⟨u, hu⟩ := Arr.hstack_some h2
  obtain ⟨-, -, t3, -⟩ := Arr.hstack_ok ht
  obtain ⟨-, -, u3, -⟩ := Arr.hstack_ok hu
  obtain ⟨x, hx⟩ := Arr.vstack_some (a := t) (b := u) (by omega)
  exact ⟨x, by simp only [Arr.block, ht, hu, exc_bind, hx]⟩

theorem arrayShingle_some {a b : Arr V} {k : Nat} (h : a.c = b.c) (hk : k ≤ b.r) :
    ∃ x, arrayShingle a b k = .ok x :=
  ⟨_, by unfold arrayShingle; rw [if_neg (not_not.mpr h), if_pos hk]⟩

theorem findFirst_some {bs : List Bool} (h : bs ≠ []) : ∃ i, findFirst bs = .ok i := by
  unfold findFirst
  rw [if_neg h]
  split <;> exact ⟨_, rfl⟩

set_option maxHeartbeats 1000000 in
theorem assemble_some {t : Typer} (g : Groups t) (hs : t.nStatic = t.static.length) {Ap Am A0p A0m : Arr V}
    (p1 : Ap.r = t.n - t.nStatic) (p2 : Ap.c = t.mixed.length + t.pureForward.length)
    (m1 : Am.r = t.n - t.nStatic) (m2 : Am.c = t.pureBackward.length + t.mixed.length)
    (q1 : A0p.r = t.n - t.nStatic) (q2 : A0p.c = t.mixed.length + t.pureForward.length)
    (z1 : A0m.r = t.n - t.static.length) (z2 : 0 < t.pureBackward.length → A0m.c = t.pureBackward.length)
    (z3 : t.pureBackward.length = 0 → A0m.c = 1)
    (hst : 0 < t.pureBackward.length ∨ t.mixed.length = 1) :
    ∃ D E, assemble t Ap Am A0p A0m = .ok (D, E) ∧ D.r = D.c ∧ E.r = E.c ∧ D.r = E.r ∧ 0 < E.r := by
  have gt := g.total
  obtain ⟨hnf, hnb, hnm, hnb', hnf', _⟩ := C31_sizes t
  have hd : t.n - t.nStatic = t.pureBackward.length + t.mixed.length + t.pureForward.length := by omega
  have hd' : t.n - t.static.length = t.pureBackward.length + t.mixed.length + t.pureForward.length := by omega
  have hdiff : t.n - (t.nForward + t.nStatic) = t.pureBackward.length := by omega
  rw [hd] at p1 m1 q1
  rw [hd'] at z1
  clear hnf hnb gt
  unfold assemble
  by_cases hmx : t.nMixed > 0
  · rw [if_pos hmx]
    have hpad : ∃ A0m' Im, padded t A0m = .ok (A0m', Im) ∧ A0m'.r = t.pureBackward.length + t.mixed.length + t.pureForward.length ∧
        A0m'.c = t.nBackward ∧ Im.r = t.nMixed ∧ Im.c = t.nBackward := by
      unfold padded
      simp only [hdiff]
      rcases Nat.eq_zero_or_pos t.pureBackward.length with h0 | h0
      · rw [if_neg (by omega)]
        exact ⟨_, _, rfl, z1, by have := z3 h0; omega, rfl, rfl⟩
      · rw [if_pos (by omega)]
        obtain ⟨B, hB⟩ := Arr.hstack_some (a := A0m) (b := Arr.zeros (t.n - t.nStatic) t.nMixed)
          (by rw [z1, ← hd]; rfl)
        obtain ⟨-, B2, B3, -⟩ := Arr.hstack_ok hB
        refine ⟨B, _, by rw [hB]; rfl, by omega, ?_, rfl, rfl⟩
        rw [B3, z2 h0]
        simp only [Arr.zeros]
        omega
    obtain ⟨A0m', Im, hp, a1, a2, i1, i2⟩ := hpad
    obtain ⟨D, hD⟩ := Arr.block_some (a := A0m') (b := Ap) (c := Im) (d := Arr.zeros t.nMixed t.nForward)
      (by omega) (by rw [i1]; rfl) (by simp only [Arr.zeros]; omega)
    obtain ⟨E, hE⟩ := Arr.block_some (a := Am.neg) (b := A0p.neg) (c := Arr.zeros t.nMixed t.nBackward)
      (d := (Arr.eye t.nMixed t.nForward 0 : Arr V)) (by simp only [Arr.neg]; omega) rfl
      (by simp only [Arr.neg, Arr.zeros, Arr.eye]; omega)
    refine ⟨D, E, by simp only [assembleMixed, hp, hD, hE, exc_bind], ?_⟩
    obtain ⟨-, -, -, d4, d5, -⟩ := block_ok hD
    obtain ⟨-, -, -, e4, e5, -⟩ := block_ok hE
    simp only [Arr.neg, Arr.zeros] at e4 e5
    clear hd hd' hdiff z1 z2 z3 hst hs hD hE hp
    exact ⟨by omega, by omega, by omega, by omega⟩
  · rw [if_neg hmx]
    have h0 : 0 < t.pureBackward.length := by omega
    have hz := z2 h0
    obtain ⟨D, hD⟩ := Arr.hstack_some (a := A0m) (b := Ap) (by omega)
    obtain ⟨e, he⟩ := Arr.hstack_some (a := Am) (b := A0p) (by omega)
    obtain ⟨-, d2, d3, -⟩ := Arr.hstack_ok hD
    obtain ⟨-, e2, e3, -⟩ := Arr.hstack_ok he
    refine ⟨D, e.neg, ?_, by omega, ?_, ?_, ?_⟩
    · simp only [assemblePure, hD, he, exc_bind]
    all_goals simp only [Arr.neg]; omega

/-- the structural state space of a rotated model -/
theorem structSpace_some {la : LinAlg V} {t : Typer} (g : Groups t) {J A : Arr V}
    (hs : t.nStatic = t.static.length) (hrot : rotated la t J = .ok A) (hA : A.r = t.n)
    (hlt : ∀ r c v, t.cell r c = some v → v < A.c)
    (hst : 0 < t.pureBackward.length ∨ t.mixed.length = 1) :
    ∃ D E, structSpace la t J = .ok (D, E, A) ∧ D.r = D.c ∧ E.r = E.c ∧ D.r = E.r ∧ 0 < E.r := by
  have gt := g.total
  obtain ⟨hnf, hnb, hnm, hnb', hnf', _⟩ := C31_sizes t
  obtain ⟨b1, b2, b3⟩ := bottom_spec A (n := t.n) (ns := t.static.length)
    (nd := t.n - t.nStatic) hA (by omega) (by omega)
  have hltb : ∀ r c v, t.cell r c = some v → v < (A.bottom (t.n - t.nStatic)).c := by
    rw [b2]; exact hlt
  obtain ⟨Ap, hAp⟩ := timed_some hltb t.drOrder (t.permute t.drOrder).forward 2
  obtain ⟨Am, hAm⟩ := timed_some hltb t.drOrder (t.permute t.drOrder).state 0
  obtain ⟨A0p, hA0p⟩ := timed_some hltb t.drOrder (t.permute t.drOrder).forward 1
  obtain ⟨A0b, hA0b⟩ := timed_some hltb t.drOrder (t.permute t.drOrder).pureBackward 1
  have hA0m : ∃ A0m, a0mTilde t A = .ok A0m := by
    unfold a0mTilde
    simp only [hA0b, exc_bind]
    split <;> exact ⟨_, rfl⟩
  obtain ⟨A0m, hA0m⟩ := hA0m
  have hAp' := hAp
  have hAm' := hAm
  have hA0p' := hA0p
  rw [g.forward] at hAp' hA0p'
  rw [g.state] at hAm'
  obtain ⟨p1, p2, -⟩ := cols_group hAp' g.lead
  obtain ⟨m1, m2, -⟩ := cols_group hAm' g.lag
  obtain ⟨q1, q2, -⟩ := cols_group hA0p' (fun j hj => g.cur _ (by omega))
  rw [b1] at p1 m1 q1
  obtain ⟨z1, z2, z3, -⟩ := a0mTilde_spec g hs hA (by omega) hA0m
  obtain ⟨D, E, hDE, hsh⟩ := assemble_some g hs p1 p2 m1 m2 q1 q2 z1 z2 (fun h => (z3 h).1) hst
  refine ⟨D, E, ?_, hsh⟩
  simp only [structSpace, hrot, hAp, hAm, hA0p, hA0m, hDE, exc_bind]

theorem create_some {la : LinAlg V} (ex : la.Exact) {t : Typer} {J A D E : Arr V}
    (hst : structSpace la t J = .ok (D, E, A)) (hD : D.r = D.c) (hE : E.r = E.c) (hDE : D.r = E.r) (h0 : 0 < E.r)
    {q : QZ V} (hq : la.ordqz E D = .ok q) : ∃ s, Space.create la t J = .ok s ∧ s.rhs = E ∧ s.lhs = D := by
  have hdec := ex.ordqz _ _ _ hE hD hDE.symm hq
  have hne : q.eigs.map (fun x => x.gt1 || x.inf) ≠ [] := by
    intro h
    have := hdec.count
    rw [List.map_eq_nil_iff] at h
    rw [h, List.length_nil] at this
    omega
  obtain ⟨expl, hx⟩ := findFirst_some hne
  have hc : la.ordqzChecked E D = .ok q := by
    unfold LinAlg.ordqzChecked
    rw [if_pos ⟨hE, hD, hDE.symm⟩, hq]
  simp only [Space.create, partitionedQZ, hst, hc, hx, exc_bind]
  exact ⟨_, rfl, rfl, rfl⟩

end

end Pynare
