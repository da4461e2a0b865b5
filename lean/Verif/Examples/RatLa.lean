import Verif.Examples.Simul
import Verif.Lemmas.OccBin
/-!
# Exact linear algebra over the rationals for the examples

The routines compute a candidate, check it, and answer only if the check succeeds; so they are exact by
construction.
-/

namespace Pynare

/-- all entries of a matrix product are as given -/
def prodB (a b c : Arr ℚ) : Bool :=
  decide (a.c = b.r) && decide (c.r = a.r) && decide (c.c = b.c) &&
    (List.range a.r).all fun i => (List.range b.c).all fun j =>
      decide ((sumTo a.c fun k => a.e i k * b.e k j) = c.e i j)

theorem prodB_spec {a b c : Arr ℚ} (h : prodB a b c = true) : a.IsProd b c := by
  unfold prodB at h
  simp only [Bool.and_eq_true, decide_eq_true_eq, List.all_eq_true, List.mem_range] at h
  exact ⟨h.1.1.1, h.1.1.2, h.1.2, h.2⟩

/-- the array is the inverse -/
def invB (a b : Arr ℚ) : Bool := prodB a b (Arr.eye a.r a.r 0) && prodB b a (Arr.eye a.r a.r 0)

theorem invB_spec {a b : Arr ℚ} (h : invB a b = true) : a.IsInv b := by
  unfold invB at h
  rw [Bool.and_eq_true] at h
  exact ⟨prodB_spec h.1, prodB_spec h.2⟩

/-- minor of a three by three array, with its sign -/
def cof (a : Arr ℚ) (i j : Nat) : ℚ :=
  a.e ((i + 1) % 3) ((j + 1) % 3) * a.e ((i + 2) % 3) ((j + 2) % 3) -
    a.e ((i + 1) % 3) ((j + 2) % 3) * a.e ((i + 2) % 3) ((j + 1) % 3)

/-- candidate for the inverse of an array of up to three rows -/
def candInv (a : Arr ℚ) : Arr ℚ := match a.r with
  | 0 => Arr.zeros 0 0
  | 1 => ⟨1, 1, fun _ _ => (a.e 0 0)⁻¹⟩
  | 2 =>
    let d := (a.e 0 0 * a.e 1 1 - a.e 0 1 * a.e 1 0)⁻¹
    listArr [[d * a.e 1 1, -d * a.e 0 1], [-d * a.e 1 0, d * a.e 0 0]] 2
  | _ =>
    let d := (a.e 0 0 * cof a 0 0 + a.e 0 1 * cof a 0 1 + a.e 0 2 * cof a 0 2)⁻¹
    listArr [[d * cof a 0 0, d * cof a 1 0, d * cof a 2 0], [d * cof a 0 1, d * cof a 1 1, d * cof a 2 1],
      [d * cof a 0 2, d * cof a 1 2, d * cof a 2 2]] 3

/-- product of a triangular and two orthogonal factors -/
def qzSide (n : Nat) (Q S Z : Arr ℚ) (b : Arr ℚ) : Bool :=
  (List.range n).all fun i => (List.range n).all fun j =>
    decide ((sumTo n fun k => (sumTo n fun l => Q.e i l * S.e l k) * Z.e j k) = b.e i j)

/-- the decomposition is one of these arrays, whose first factor is triangular -/
def qzB (q : QZ ℚ) (b a : Arr ℚ) : Bool :=
  ([q.S, q.T, q.Q, q.Zt].all fun x => decide (x.r = b.r ∧ x.c = b.r)) && decide (q.eigs.length = b.r) &&
    invB q.Q q.Q.tr && invB q.Zt q.Zt.tr && qzSide b.r q.Q q.S q.Zt b && qzSide b.r q.Q q.T q.Zt a &&
    (List.range b.r).all fun i => (List.range i).all fun j => decide (q.T.e i j = 0 ∧ q.S.e i j = 0)

theorem qzB_spec {q : QZ ℚ} {b a : Arr ℚ} (h : qzB q b a = true) : q.Decomposes b a := by
  unfold qzB qzSide at h
  simp only [Bool.and_eq_true, decide_eq_true_eq, List.all_eq_true, List.mem_range] at h
  obtain ⟨⟨⟨⟨⟨⟨h1, h2⟩, h3⟩, h4⟩, h5⟩, h6⟩, h7⟩ := h
  exact ⟨h1, h2, invB_spec h3, invB_spec h4, h5, h6, fun i j hji hi => (h7 i hi j hji).1,
    fun i j hji hi => (h7 i hi j (by omega)).2,
    fun i hi hne => absurd (h7 (i + 1) hi i (by omega)).2 hne⟩

/-- linear algebra for the examples: exact where it answers -/
def ratLa (rank : Nat) (q : QZ ℚ) : LinAlg ℚ where
  qr M := if M.c = 1 ∧ (List.range M.r).all (fun i => decide (i = 0 ∨ M.e i 0 = 0)) = true then
      .ok (Arr.eye M.r M.r 0, M) else .error .valueError
  rank _ := rank
  ordqz b a := if qzB q b a then .ok q else .error .valueError
  inv a := if invB a (candInv a) then .ok (candInv a) else .error .valueError
  solve a b := if invB a (candInv a) then
      .ok ⟨a.r, b.c, fun i j => sumTo a.r fun k => (candInv a).e i k * b.e k j⟩ else .error .valueError

theorem ratLa_exact (rank : Nat) (q : QZ ℚ) : (ratLa rank q).Exact := by
  refine ⟨(exLa_exact (l2 := 2) (by norm_num) stab expl).qr, ?_, ?_, ?_⟩
  · intro a b _ h
    simp only [ratLa] at h
    split at h
    · rename_i hi
      rw [← Except.ok.inj h]; exact invB_spec hi
    · cases h
  · intro a b x hsq hr h
    simp only [ratLa] at h
    split at h
    · rename_i hi
      have hinv := invB_spec hi
      refine ⟨?_, _, hinv⟩
      rw [← Except.ok.inj h]
      refine ⟨by show a.c = a.r; omega, hr, rfl, ?_⟩
      intro i hi' j _
      have hc : (candInv a).c = a.r := hinv.1.2.2.1.symm
      have := mulVec_inv hinv rfl (fun k => b.e k j) hi'
      rw [← this]
      unfold mulVec
      rw [hc]
    · cases h
  · intro b a q' _ _ _ h
    simp only [ratLa] at h
    split at h
    · rename_i hq
      rw [← Except.ok.inj h]; exact qzB_spec hq
    · cases h

end Pynare
