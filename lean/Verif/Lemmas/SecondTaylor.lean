import Verif.Lemmas.SecondSolve
import Verif.Spec.SecondOrder
/-!
# Lemmas about the second-order solution: expansion of the equations
-/

namespace Pynare

variable {V : Type} [CommRing V] [DecidableEq V]

set_option linter.unusedSectionVars false

open Nd (kronEnt)
open Matrix

/-! ### the number of columns -/

theorem filterMap_length_sel (t : Typer) (r : Nat) :
    ((List.range t.n).filterMap (t.cell r)).length = (t.sel fun c => t.has r c).length := by
  unfold Typer.sel Typer.has
  induction List.range t.n with
  | nil => rfl
  | cons c cs ih =>
    cases hc : t.cell r c with
    | none => simp [hc, ih]
    | some v => simp [hc, ih]

theorem count_eq {pss : List (List Int)} {t : Llx} (h : buildLlx pss = .ok t)
    (hcur : ∀ c < t.n, t.has 1 c = true) : t.count = t.nT + t.n + t.nF := by
  obtain ⟨h1, h2, -, h4, h5⟩ := buildLlx_spec h
  have pw : ∀ r, ((List.range t.n).filterMap (t.cell r)).Pairwise (· < ·) := by
    intro r
    rw [List.pairwise_filterMap]
    refine List.Pairwise.imp ?_ (List.pairwise_lt_range (n := t.n))
    intro c c' hcc k hk k' hk'
    exact (h4 r c k r c' k' hk hk').mpr (.inr ⟨rfl, hcc⟩)
  have mem : ∀ r k, k ∈ (List.range t.n).filterMap (t.cell r) ↔ ∃ c, t.cell r c = some k := by
    intro r k
    rw [List.mem_filterMap]
    constructor
    · rintro ⟨c, -, hc⟩; exact ⟨c, hc⟩
    · rintro ⟨c, hc⟩
      exact ⟨c, List.mem_range.mpr (by have := (h2 r c k hc).2; omega), hc⟩
  have cross : ∀ r r', r < r' → ∀ k ∈ (List.range t.n).filterMap (t.cell r),
      ∀ k' ∈ (List.range t.n).filterMap (t.cell r'), k < k' := by
    intro r r' hr k hk k' hk'
    obtain ⟨c, hc⟩ := (mem r k).mp hk
    obtain ⟨c', hc'⟩ := (mem r' k').mp hk'
    exact (h4 r c k r' c' k' hc hc').mpr (.inl hr)
  have all : ((List.range t.n).filterMap (t.cell 0) ++ ((List.range t.n).filterMap (t.cell 1) ++
      (List.range t.n).filterMap (t.cell 2))).Pairwise (· < ·) := by
    rw [List.pairwise_append, List.pairwise_append]
    refine ⟨pw 0, ⟨pw 1, pw 2, cross 1 2 (by omega)⟩, ?_⟩
    intro k hk k' hk'
    rcases List.mem_append.mp hk' with h' | h'
    · exact cross 0 1 (by omega) k hk k' h'
    · exact cross 0 2 (by omega) k hk k' h'
  have perm : ((List.range t.n).filterMap (t.cell 0) ++ ((List.range t.n).filterMap (t.cell 1) ++
      (List.range t.n).filterMap (t.cell 2))).Perm (List.range t.count) := by
    refine (List.perm_ext_iff_of_nodup ?_ List.nodup_range).mpr fun k => ?_
    · exact all.imp fun hlt heq => by omega
    · rw [List.mem_range, h5, List.mem_append, List.mem_append, mem, mem, mem]
      constructor
      · rintro (⟨c, hc⟩ | ⟨c, hc⟩ | ⟨c, hc⟩)
        · exact ⟨0, c, hc⟩
        · exact ⟨1, c, hc⟩
        · exact ⟨2, c, hc⟩
      · rintro ⟨r, c, hc⟩
        have := (h2 r c k hc).1
        rcases r with _ | _ | _ | r
        · exact .inl ⟨c, hc⟩
        · exact .inr (.inl ⟨c, hc⟩)
        · exact .inr (.inr ⟨c, hc⟩)
        · omega
  have := perm.length_eq
  rw [List.length_range, List.length_append, List.length_append, filterMap_length_sel, filterMap_length_sel,
    filterMap_length_sel] at this
  obtain ⟨s1, s2, -, s4, s5, -⟩ := C31_sizes t.toTyper
  have e0 : (t.sel fun c => t.has 0 c).length = t.nT := by
    rw [← show t.nBackward = t.nT from s4, s2]; rfl
  have e1 : (t.sel fun c => t.has 1 c).length = t.n := by
    unfold Typer.sel
    rw [List.filter_eq_self.mpr (fun c hc => hcur c (List.mem_range.mp hc)), List.length_range]
  have e2 : (t.sel fun c => t.has 2 c).length = t.nF := by
    have : t.nForward = t.nF := by rw [s5]; exact Nat.add_comm _ _
    rw [← this, s1]; rfl
  omega

/-! ### the equations in decision-rule order -/

theorem sumTo_add {a b : Nat} (f : Nat → V) : sumTo (a + b) f = sumTo a f + sumTo b fun p => f (a + p) := by
  rw [sumTo_eq, sumTo_eq, sumTo_eq, Finset.sum_range_add]

section
variable {t : Typer} (g : Groups t)
include g

theorem rowPart_lag' (A : Arr V) (i : Nat) (y : Nat → V) :
    rowPart t A i 0 y = sumTo t.nT fun b => A.e i (t.col 0 (t.nS + b)) * y (t.dr (t.nS + b)) := by
  rw [rowPart_lag g, show t.nT = t.pureBackward.length + t.mixed.length from rfl, sumTo_enum (stEnum t)]
  rfl

theorem rowPart_lead' (A : Arr V) (i : Nat) (y : Nat → V) :
    rowPart t A i 2 y = sumTo t.nF fun f => A.e i (t.col 2 (t.f0 + f)) * y (t.dr (t.f0 + f)) := by
  rw [rowPart_lead g, show t.nF = t.mixed.length + t.pureForward.length from rfl, sumTo_enum (fwEnum t)]
  rfl

theorem rowPart_cur' (A : Arr V) (i : Nat) (y : Nat → V) :
    rowPart t A i 1 y = sumTo t.n fun j => A.e i (t.col 1 j) * y (t.dr j) := by
  rw [rowPart_dr g, sumTo_enum (allEnum g)]
  refine Finset.sum_congr rfl fun a _ => ?_
  rw [cell_some (g.cur _ ((allEnum g).lt a))]

theorem nSum : t.nS + t.nT ≤ t.n ∧ t.f0 + t.nF = t.n := by
  have := g.total
  unfold Typer.nS Typer.nT Typer.f0 Typer.nF
  omega

end

/-- the arguments of the equations in decision-rule order -/
def stackDr (t : Typer) (d : Around V) (p : Nat) : V :=
  if p < t.nT then d.before (t.dr (t.nS + p))
  else if p < t.nT + t.n then d.now (t.dr (p - t.nT))
  else if p < t.nT + t.n + t.nF then d.after (t.dr (t.f0 + (p - (t.nT + t.n))))
  else d.shock (p - (t.nT + t.n + t.nF))

theorem linearised_stack {t : Llx} (g : Groups t.toTyper) (hc : t.count = t.nT + t.n + t.nF) (nExog : Nat)
    (J : Arr V) (i : Nat) (d : Around V) :
    linearised t nExog J i d.before d.now d.after d.shock =
      sumTo (t.count + nExog) fun p => J.e i (drPos t.toTyper p) * stackDr t.toTyper d p := by
  unfold linearised
  rw [rowPart_lag' g, rowPart_lead' g, rowPart_cur' g]
  rw [hc, sumTo_add, sumTo_add, sumTo_add]
  have e0 : (sumTo t.nT fun p => J.e i (drPos t.toTyper p) * stackDr t.toTyper d p) =
      sumTo t.nT fun b => J.e i (t.col 0 (t.nS + b)) * d.before (t.dr (t.nS + b)) := by
    refine sumTo_congr fun p hp => ?_
    have h0 : p < t.pureBackward.length + t.mixed.length := hp
    unfold drPos stackDr
    rw [if_pos h0, if_pos hp]
    rfl
  have e1 : (sumTo t.n fun p => J.e i (drPos t.toTyper (t.nT + p)) * stackDr t.toTyper d (t.nT + p)) =
      sumTo t.n fun j => J.e i (t.col 1 j) * d.now (t.dr j) := by
    refine sumTo_congr fun p hp => ?_
    have h0 : ¬ t.nT + p < t.pureBackward.length + t.mixed.length := by unfold Typer.nT; omega
    have h1 : t.nT + p < t.pureBackward.length + t.mixed.length + t.n := by unfold Typer.nT; omega
    unfold drPos stackDr
    rw [if_neg h0, if_pos h1, if_neg (by omega), if_pos (by omega), Nat.add_sub_cancel_left,
      show t.nT + p - (t.pureBackward.length + t.mixed.length) = p by unfold Typer.nT; omega]
  have e2 : (sumTo t.nF fun p => J.e i (drPos t.toTyper (t.nT + t.n + p)) * stackDr t.toTyper d (t.nT + t.n + p)) =
      sumTo t.nF fun f => J.e i (t.col 2 (t.f0 + f)) * d.after (t.dr (t.f0 + f)) := by
    refine sumTo_congr fun p hp => ?_
    have h0 : ¬ t.nT + t.n + p < t.pureBackward.length + t.mixed.length := by unfold Typer.nT; omega
    have h1 : ¬ t.nT + t.n + p < t.pureBackward.length + t.mixed.length + t.n := by unfold Typer.nT; omega
    have h2 : t.nT + t.n + p < t.pureBackward.length + t.mixed.length + t.n +
      (t.mixed.length + t.pureForward.length) := by unfold Typer.nT; unfold Typer.nF at hp; omega
    unfold drPos stackDr
    rw [if_neg h0, if_neg h1, if_pos h2, if_neg (by omega), if_neg (by omega), if_pos (by omega),
      Nat.add_sub_cancel_left,
      show t.nT + t.n + p - (t.pureBackward.length + t.mixed.length + t.n) = p by unfold Typer.nT; omega]
    rfl
  have e3 : (sumTo nExog fun p => J.e i (drPos t.toTyper (t.nT + t.n + t.nF + p)) *
      stackDr t.toTyper d (t.nT + t.n + t.nF + p)) =
      sumTo nExog fun k => J.e i (t.nT + t.n + t.nF + k) * d.shock k := by
    refine sumTo_congr fun p hp => ?_
    have h0 : ¬ t.nT + t.n + t.nF + p < t.pureBackward.length + t.mixed.length := by unfold Typer.nT; omega
    have h1 : ¬ t.nT + t.n + t.nF + p < t.pureBackward.length + t.mixed.length + t.n := by
      unfold Typer.nT; omega
    have h2 : ¬ t.nT + t.n + t.nF + p < t.pureBackward.length + t.mixed.length + t.n +
      (t.mixed.length + t.pureForward.length) := by unfold Typer.nT Typer.nF; omega
    unfold drPos stackDr
    rw [if_neg h0, if_neg h1, if_neg h2, if_neg (by omega), if_neg (by omega), if_neg (by omega),
      Nat.add_sub_cancel_left]
  rw [e0, e1, e2, e3]
  ring

/-- the bilinear form of the reordered hessian -/
def hessForm (hess : Arr V) (nz i : Nat) (s s' : Nat → V) : V :=
  sumTo nz fun p => sumTo nz fun q => hess.e i (p * nz + q) * (s p * s' q)

theorem curvature_stack {t : Llx} (g : Groups t.toTyper) (hc : t.count = t.nT + t.n + t.nF) {nExog : Nat}
    {H hess : Arr V} {order : List Nat}
    (ho : squareCols (t.toTyper.drAll nExog).length (t.toTyper.drAll nExog) = .ok order)
    (hh : H.cols order = .ok hess) (i : Nat) (d d' : Around V) :
    curvature t nExog H i d d' =
      hessForm hess (t.count + nExog) i (stackDr t.toTyper d) (stackDr t.toTyper d') := by
  have hlen : (t.toTyper.drAll nExog).length = t.count + nExog := by
    rw [drAll_length g, hc]; rfl
  obtain ⟨-, -, o3⟩ := squareCols_ok ho
  obtain ⟨-, -, h3⟩ := cols_e hh
  unfold curvature hessForm
  rw [linearised_stack g hc]
  refine sumTo_congr fun p hp => ?_
  dsimp only
  rw [linearised_stack g hc, sumTo_eq, sumTo_eq, Finset.sum_mul]
  refine Finset.sum_congr rfl fun q hq => ?_
  have hq := Finset.mem_range.mp hq
  dsimp only
  have := o3 p q (by omega) (by omega)
  rw [drAll_get g nExog p (by omega), drAll_get g nExog q (by omega), hlen] at this
  rw [h3, this]
  ring

/-- the hessian in decision-rule order is as symmetric as the original -/
theorem hess_symm {t : Llx} (g : Groups t.toTyper) (hc : t.count = t.nT + t.n + t.nF) {nExog : Nat}
    {H hess : Arr V} {order : List Nat}
    (ho : squareCols (t.toTyper.drAll nExog).length (t.toTyper.drAll nExog) = .ok order)
    (hh : H.cols order = .ok hess) (hsym : SymmetricHessian t nExog H) :
    ∀ i < t.n, ∀ p < t.count + nExog, ∀ q < t.count + nExog,
      hess.e i (p * (t.count + nExog) + q) = hess.e i (q * (t.count + nExog) + p) := by
  have hlen : (t.toTyper.drAll nExog).length = t.count + nExog := by
    rw [drAll_length g, hc]; rfl
  obtain ⟨-, o2, o3⟩ := squareCols_ok ho
  obtain ⟨-, -, h3⟩ := cols_e hh
  intro i hi p hp q hq
  have lt : ∀ p < t.count + nExog, drPos t.toTyper p < t.count + nExog := by
    intro p hp
    rw [← drAll_get g nExog p (by omega), List.getElem?_eq_getElem (by omega), Option.getD_some, ← hlen]
    exact o2 _ (List.getElem_mem _)
  have e1 := o3 p q (by omega) (by omega)
  have e2 := o3 q p (by omega) (by omega)
  rw [drAll_get g nExog p (by omega), drAll_get g nExog q (by omega), hlen] at e1 e2
  rw [h3, h3, e1, e2]
  exact hsym i hi _ (lt p hp) _ (lt q hq)

/-! ### the policy functions -/

theorem stateVals_eq {t : Typer} (g : Groups t) (y : Nat → V) {b : Nat} (hb : b < t.nT) :
    stateVals t y b = y (t.dr (t.nS + b)) := by
  unfold stateVals
  rw [g.state, List.getElem?_range' (show b < t.pureBackward.length + t.mixed.length from hb)]
  simp only [Option.getD_some, Nat.one_mul]
  rfl

theorem dr_get {t : Typer} (g : Groups t) {i : Nat} (hi : i < t.n) : t.drOrder[i]? = some (t.dr i) := by
  have hl : t.drOrder.length = t.n := by rw [g.perm.length_eq]; simp
  unfold Typer.dr
  rw [List.getElem?_eq_getElem (by omega)]
  rfl

theorem follows_dr {t : Typer} (g : Groups t) {nExog : Nat} {gy gu : Arr V} {ym u y : Nat → V}
    (h : FollowsPolicy t nExog gy gu ym u y) {i : Nat} (hi : i < t.n) :
    y (t.dr i) = (sumTo t.nT fun j => gy.e i j * stateVals t ym j) + sumTo nExog fun k => gu.e i k * u k := by
  have := h i (t.dr i) (dr_get g hi)
  rw [this, show t.nBackward = t.nT from (C31_sizes t).2.2.2.1]
  rfl

/-- variables, this period and next, that follow the policy functions -/
theorem stack_policy {t : Typer} (g : Groups t) {nExog : Nat} {gy gu : Arr V} {ym u y yp : Nat → V}
    (h1 : FollowsPolicy t nExog gy gu ym u y) (h2 : FollowsPolicy t nExog gy gu y (fun _ => 0) yp) (p : Nat)
    (hp : p < t.nT + t.n + t.nF + nExog) :
    stackDr t ⟨ym, y, yp, u⟩ p = (sumTo t.nT fun j => zxEnt t gy.e p j * stateVals t ym j) +
      sumTo nExog fun k => zuEnt t gy.e gu.e p k * u k := by
  obtain ⟨n1, n2⟩ := nSum g
  unfold stackDr zxEnt zuEnt
  dsimp only
  split
  · rename_i hp0
    have e : (sumTo nExog fun k => (0 : V) * u k) = 0 := by
      rw [sumTo_eq]; exact Finset.sum_eq_zero fun k _ => by ring
    rw [e, add_zero, sumTo_eq, Finset.sum_eq_single p]
    · rw [if_pos rfl, one_mul, stateVals_eq g ym hp0]
    · intro j _ hj
      rw [if_neg (fun h => hj h.symm), zero_mul]
    · intro hnot; exact absurd (Finset.mem_range.mpr hp0) hnot
  · split
    · exact follows_dr g h1 (by omega)
    · split
      · rw [follows_dr g h2 (by omega)]
        have e : (sumTo nExog fun k => gu.e (t.f0 + (p - (t.nT + t.n))) k * (0 : V)) = 0 := by
          rw [sumTo_eq]; exact Finset.sum_eq_zero fun k _ => by ring
        rw [e, add_zero]
        have e2 : ∀ k < t.nT, stateVals t y k = (sumTo t.nT fun j => gy.e (t.nS + k) j * stateVals t ym j) +
            sumTo nExog fun l => gu.e (t.nS + k) l * u l := by
          intro k hk
          rw [stateVals_eq g y hk, follows_dr g h1 (by omega)]
        rw [sumTo_congr (fun k hk => by rw [e2 k hk])]
        simp only [sumTo_eq, mul_add, Finset.sum_add_distrib, Finset.mul_sum, Finset.sum_mul]
        congr 1
        · rw [Finset.sum_comm]
          exact Finset.sum_congr rfl fun j _ => Finset.sum_congr rfl fun k _ => by ring
        · rw [Finset.sum_comm]
          exact Finset.sum_congr rfl fun j _ => Finset.sum_congr rfl fun k _ => by ring
      · have e : (sumTo t.nT fun j => (0 : V) * stateVals t ym j) = 0 := by
          rw [sumTo_eq]; exact Finset.sum_eq_zero fun k _ => by ring
        rw [e, zero_add, sumTo_eq, Finset.sum_eq_single (p - (t.nT + t.n + t.nF))]
        · rw [if_pos rfl, one_mul]
        · intro j _ hj
          rw [if_neg (fun h => hj h.symm), zero_mul]
        · intro hnot
          exact absurd (Finset.mem_range.mpr (by omega)) hnot

/-- what second-order terms do to the linearised equations -/
theorem linearised_AC {t : Llx} (g : Groups t.toTyper) {nExog : Nat} {J A C : Arr V} {G : Nat → Nat → V}
    (hA : ∀ i < t.n, ∀ j < t.n, A.e i j = J.e i (t.col 1 j) + if t.nS ≤ j ∧ j < t.nS + t.nT then
        sumTo t.nF fun f => J.e i (t.col 2 (t.f0 + f)) * G (t.f0 + f) (j - t.nS) else 0)
    (hC : ∀ i < t.n, ∀ j < t.n, C.e i j = if t.f0 ≤ j then J.e i (t.col 2 j) else 0)
    {q q' Z : Nat → V} (hq : ∀ j < t.n, q' (t.dr j) = (sumTo t.nT fun b => G j b * q (t.dr (t.nS + b))) + Z j)
    {i : Nat} (hi : i < t.n) :
    linearised t nExog J i (fun _ => 0) q q' (fun _ => 0) =
      (sumTo t.n fun k => A.e i k * q (t.dr k)) + sumTo t.n fun k => C.e i k * Z k := by
  obtain ⟨n1, n2⟩ := nSum g
  unfold linearised
  rw [rowPart_lag' g, rowPart_lead' g, rowPart_cur' g]
  have z1 : (sumTo t.nT fun b => J.e i (t.col 0 (t.nS + b)) * (0 : V)) = 0 := by
    rw [sumTo_eq]; exact Finset.sum_eq_zero fun k _ => by ring
  have z2 : (sumTo nExog fun k => J.e i (t.count + k) * (0 : V)) = 0 := by
    rw [sumTo_eq]; exact Finset.sum_eq_zero fun k _ => by ring
  rw [z1, z2, add_zero, add_zero]
  have c1 : (sumTo t.n fun k => C.e i k * Z k) = sumTo t.nF fun f => J.e i (t.col 2 (t.f0 + f)) * Z (t.f0 + f) := by
    rw [← n2, sumTo_add]
    have : (sumTo t.f0 fun k => C.e i k * Z k) = 0 := by
      rw [sumTo_eq]
      refine Finset.sum_eq_zero fun k hk => ?_
      have hk := Finset.mem_range.mp hk
      rw [hC i hi k (by omega), if_neg (by omega), zero_mul]
    rw [this, zero_add]
    refine sumTo_congr fun f hf => ?_
    rw [hC i hi (t.f0 + f) (by omega), if_pos (by omega)]
  have a1 : (sumTo t.n fun k => A.e i k * q (t.dr k)) = (sumTo t.n fun j => J.e i (t.col 1 j) * q (t.dr j)) +
      sumTo t.nT fun b => (sumTo t.nF fun f => J.e i (t.col 2 (t.f0 + f)) * G (t.f0 + f) b) *
        q (t.dr (t.nS + b)) := by
    have e1 : (sumTo t.n fun k => A.e i k * q (t.dr k)) = (sumTo t.n fun j => J.e i (t.col 1 j) * q (t.dr j)) +
        sumTo t.n fun j => (if t.nS ≤ j ∧ j < t.nS + t.nT then
          sumTo t.nF fun f => J.e i (t.col 2 (t.f0 + f)) * G (t.f0 + f) (j - t.nS) else 0) * q (t.dr j) := by
      rw [sumTo_eq t.n, sumTo_eq t.n, sumTo_eq t.n, ← Finset.sum_add_distrib]
      refine Finset.sum_congr rfl fun j hj => ?_
      rw [hA i hi j (Finset.mem_range.mp hj), add_mul]
    rw [e1]
    congr 1
    have hn : t.n = t.nS + (t.nT + (t.n - t.nS - t.nT)) := by omega
    rw [hn, sumTo_add, sumTo_add]
    have y1 : (sumTo t.nS fun j => (if t.nS ≤ j ∧ j < t.nS + t.nT then
          sumTo t.nF fun f => J.e i (t.col 2 (t.f0 + f)) * G (t.f0 + f) (j - t.nS) else 0) * q (t.dr j)) = 0 := by
      rw [sumTo_eq]
      refine Finset.sum_eq_zero fun k hk => ?_
      have hk := Finset.mem_range.mp hk
      rw [if_neg (by omega), zero_mul]
    have y2 : (sumTo (t.n - t.nS - t.nT) fun p => (if t.nS ≤ t.nS + (t.nT + p) ∧ t.nS + (t.nT + p) < t.nS + t.nT then
          sumTo t.nF fun f => J.e i (t.col 2 (t.f0 + f)) * G (t.f0 + f) (t.nS + (t.nT + p) - t.nS) else 0) *
            q (t.dr (t.nS + (t.nT + p)))) = 0 := by
      rw [sumTo_eq]
      refine Finset.sum_eq_zero fun k hk => ?_
      rw [if_neg (by omega), zero_mul]
    rw [y1, y2, zero_add, add_zero]
    refine sumTo_congr fun b hb => ?_
    rw [if_pos (by omega), Nat.add_sub_cancel_left]
  rw [a1, c1]
  have l1 : (sumTo t.nF fun f => J.e i (t.col 2 (t.f0 + f)) * q' (t.dr (t.f0 + f))) =
      (sumTo t.nT fun b => (sumTo t.nF fun f => J.e i (t.col 2 (t.f0 + f)) * G (t.f0 + f) b) *
        q (t.dr (t.nS + b))) + sumTo t.nF fun f => J.e i (t.col 2 (t.f0 + f)) * Z (t.f0 + f) := by
    rw [sumTo_congr (fun f hf => by rw [hq (t.f0 + f) (by omega)])]
    simp only [sumTo_eq, mul_add, Finset.sum_add_distrib, Finset.mul_sum, Finset.sum_mul]
    congr 1
    rw [Finset.sum_comm]
    exact Finset.sum_congr rfl fun j _ => Finset.sum_congr rfl fun k _ => by ring
  rw [l1]
  ring

/-! ### contraction -/

/-- a product with a Kronecker product, applied to products of entries -/
theorem kronEnt_contract {A : Arr V} {r r' c c' : Nat} {f h : Nat → Nat → V} {i : Nat} (v w : Nat → V) :
    (sumTo c fun a => sumTo c' fun b => kronEnt A r f r' c' h i (a * c' + b) * (v a * w b)) =
      sumTo r fun p => sumTo r' fun q => A.e i (p * r' + q) *
        ((sumTo c fun a => f p a * v a) * sumTo c' fun b => h q b * w b) := by
  have e1 : (sumTo c fun a => sumTo c' fun b => kronEnt A r f r' c' h i (a * c' + b) * (v a * w b)) =
      sumTo c fun a => sumTo c' fun b => sumTo r fun p => sumTo r' fun q =>
        A.e i (p * r' + q) * ((f p a * v a) * (h q b * w b)) := by
    refine sumTo_congr fun a _ => sumTo_congr fun b hb => ?_
    unfold kronEnt
    rw [Nd.div_add hb, Nd.mod_add hb]
    simp only [sumTo_eq, Finset.sum_mul]
    exact Finset.sum_congr rfl fun p _ => Finset.sum_congr rfl fun q _ => by ring
  rw [e1]
  simp only [sumTo_eq, Finset.sum_mul, Finset.mul_sum]
  rw [Finset.sum_congr rfl fun a _ => Finset.sum_comm, Finset.sum_comm]
  refine Finset.sum_congr rfl fun p _ => ?_
  rw [Finset.sum_congr rfl fun a _ => Finset.sum_congr rfl fun b _ => rfl]
  rw [Finset.sum_congr rfl fun a _ => Finset.sum_comm, Finset.sum_comm]
  refine Finset.sum_congr rfl fun q _ => ?_
  rw [Finset.sum_comm]

/-- an equation for all columns, applied to products of entries -/
theorem contract {n nt nz c c' : Nat} {A C X hess : Arr V} {Y : Nat → Nat → V} {P Q Z W : Nat → Nat → V}
    {i : Nat} (h : ∀ j < c * c', (sumTo n fun k => A.e i k * Y k j) +
        (sumTo n fun k => C.e i k * kronEnt X nt P nt c' Q k j) = - kronEnt hess nz Z nz c' W i j)
    (v w : Nat → V) :
    (sumTo n fun k => A.e i k * sumTo c fun a => sumTo c' fun b => Y k (a * c' + b) * (v a * w b)) +
      (sumTo n fun k => C.e i k * sumTo nt fun p => sumTo nt fun q => X.e k (p * nt + q) *
        ((sumTo c fun a => P p a * v a) * sumTo c' fun b => Q q b * w b)) =
      - hessForm hess nz i (fun p => sumTo c fun a => Z p a * v a) fun q => sumTo c' fun b => W q b * w b := by
  have e3 : hessForm hess nz i (fun p => sumTo c fun a => Z p a * v a) (fun q => sumTo c' fun b => W q b * w b) =
      sumTo c fun a => sumTo c' fun b => kronEnt hess nz Z nz c' W i (a * c' + b) * (v a * w b) :=
    (kronEnt_contract v w).symm
  have e2 : (sumTo n fun k => C.e i k * sumTo nt fun p => sumTo nt fun q => X.e k (p * nt + q) *
        ((sumTo c fun a => P p a * v a) * sumTo c' fun b => Q q b * w b)) =
      sumTo n fun k => C.e i k * sumTo c fun a => sumTo c' fun b =>
        kronEnt X nt P nt c' Q k (a * c' + b) * (v a * w b) := by
    refine sumTo_congr fun k _ => ?_
    rw [kronEnt_contract v w]
  have sw : ∀ (M : Arr V) (N : Nat → Nat → V), (sumTo n fun k => M.e i k * sumTo c fun a => sumTo c' fun b =>
      N k (a * c' + b) * (v a * w b)) = sumTo c fun a => sumTo c' fun b =>
        (sumTo n fun k => M.e i k * N k (a * c' + b)) * (v a * w b) := by
    intro M N
    simp only [sumTo_eq, Finset.mul_sum, Finset.sum_mul]
    rw [Finset.sum_comm]
    refine Finset.sum_congr rfl fun a _ => ?_
    rw [Finset.sum_comm]
    exact Finset.sum_congr rfl fun b _ => Finset.sum_congr rfl fun k _ => by ring
  rw [e2, e3, sw A Y, sw C fun k j => kronEnt X nt P nt c' Q k j]
  simp only [sumTo_eq c, sumTo_eq c', ← Finset.sum_add_distrib, ← Finset.sum_neg_distrib, ← add_mul]
  refine Finset.sum_congr rfl fun a ha => Finset.sum_congr rfl fun b hb => ?_
  have ha := Finset.mem_range.mp ha
  have hb := Finset.mem_range.mp hb
  rw [h (a * c' + b) (by
    calc a * c' + b < a * c' + c' := by omega
      _ = (a + 1) * c' := by rw [Nat.succ_mul]
      _ ≤ c * c' := Nat.mul_le_mul_right _ (by omega)), neg_mul]

end Pynare
