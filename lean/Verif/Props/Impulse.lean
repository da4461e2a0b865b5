import Verif.Lemmas.Impulse
import Verif.Props.Binding
import Verif.Props.Simul
import Mathlib.Data.List.Dedup
import Mathlib.Algebra.BigOperators.Group.Finset.Basic
/-!
# Impulse responses by name, and simulations as sums of impulse responses

C155, C156.
-/

namespace Pynare

set_option linter.unusedSectionVars false

section
variable {V : Type} [CommRing V] {chol : Chol V} {half : V} {t : Typer} {ys : List V} {sigma gy gu : Arr V}
  {stoch : List String}

/-! ### C155: the shocks asked for -/

theorem impulseShocksAt_one (periods n i : Nat) (size : V) :
    impulseShocksAt periods n [i] size = impulseShocks periods n i size := by
  unfold impulseShocksAt impulseShocks
  simp

theorem index_one (hn : stoch.Nodup) {i : Nat} {x : String} (hx : stoch[i]? = some x) :
    ImpulseArg.index stoch (.one x) = .ok [i] := by
  show ((getLoc1 stoch x).bind fun i => .ok [i]) = _
  rw [(getLoc1_ok hn).mpr hx]
  rfl

/-- **C155.** The response to a shock asked for by its name is the response to that shock. -/
theorem C155_one (sol : LinSol V) (hn : stoch.Nodup) (hs : sigma.r = stoch.length) {i : Nat} {x : String}
    (hx : stoch[i]? = some x) (periods : Nat) (size : V) :
    impulseNamed chol half t sol ys sigma stoch (.one x) periods size =
      impulseResponse chol half t sol ys sigma periods i size := by
  unfold impulseNamed impulseResponse
  rw [bind_ok_of_eq _ (index_one hn hx), impulseShocksAt_one, hs]

/-- **C155.** If no shock is asked for, the response to the first one is computed; without shocks, `IndexError`. -/
theorem C155_default (sol : LinSol V) (hn : stoch.Nodup) (periods : Nat) (size : V) :
    (∀ x, stoch[0]? = some x → impulseNamed chol half t sol ys sigma stoch .none periods size =
      impulseNamed chol half t sol ys sigma stoch (.one x) periods size) ∧
    (stoch = [] → impulseNamed chol half t sol ys sigma stoch .none periods size = .error .indexError) := by
  constructor
  · intro x hx
    unfold impulseNamed
    rw [index_one hn hx]
    rfl
  · rintro rfl
    show (impulseShocksAt periods 0 [0] size).bind _ = _
    unfold impulseShocksAt
    rw [if_pos (Or.inr (by simp))]
    rfl

/-- **C155.** Names that are not names of shocks are refused with `KeyError`, alone or among others. -/
theorem C155_unknown (sol : LinSol V) (hn : stoch.Nodup) {x : String} (hx : x ∉ stoch) (periods : Nat) (size : V) :
    impulseNamed chol half t sol ys sigma stoch (.one x) periods size = .error .keyError ∧
    ∀ xs, x ∈ xs → impulseNamed chol half t sol ys sigma stoch (.many xs) periods size = .error .keyError := by
  constructor
  · show ((getLoc1 stoch x).bind fun i => .ok [i]).bind _ = _
    rw [(C40_lookup_one stoch x).2.1.mpr hx]
    rfl
  · intro xs hxs
    have h := C40_lookup_partial stoch hn xs
    have : getLoc stoch xs = .error .keyError := h.2.1 fun h' => hx (h.1.mp h' x hxs)
    unfold impulseNamed
    rw [show ImpulseArg.index stoch (.many xs) = getLoc stoch xs from rfl, this]
    rfl

/-- **C155.** The response to several shocks at once is the sum of the responses to each of them; a name given twice
counts once. -/
theorem C155_joint (hn : stoch.Nodup) (xs : List String) (hne : xs ≠ []) (periods : Nat) (size : V) (q : String → Arr V)
    (hq : ∀ x ∈ xs, impulseNamed chol half t (.first gy gu) ys sigma stoch (.one x) periods size = .ok (q x)) :
    ∃ p, impulseNamed chol half t (.first gy gu) ys sigma stoch (.many xs) periods size = .ok p ∧
      p.r = periods ∧ p.c = ys.length ∧ ∀ k c, p.e k c = (xs.dedup.map fun x => (q x).e k c).sum := by
  obtain ⟨x0, hx0⟩ := List.exists_mem_of_ne_nil _ hne
  have one : ∀ x idx, ImpulseArg.index stoch (.one x) = .ok idx → ∃ i, idx = [i] ∧ stoch[i]? = some x := by
    intro x idx h
    unfold ImpulseArg.index at h
    obtain ⟨i, hi, h⟩ := Except.bind_eq_ok h
    exact ⟨i, (Except.ok.inj h).symm, (getLoc1_ok hn).mp hi⟩
  have hall : ∀ x ∈ xs, x ∈ stoch := by
    intro x hx
    obtain ⟨idx, u, h, -⟩ := impulse_at (hq x hx)
    obtain ⟨i, -, h⟩ := one x idx h
    exact List.mem_of_getElem? h
  obtain ⟨is, his⟩ := getLoc_exists hn hall
  obtain ⟨l1, l2⟩ := (getLoc_ok hn).mp his
  have hmem : ∀ i, i ∈ is ↔ ∃ x ∈ xs, stoch[i]? = some x := by
    intro i
    constructor
    · intro hi
      obtain ⟨j, hj⟩ := List.mem_iff_getElem?.mp hi
      have hjl : j < xs.length := by have := (List.getElem?_eq_some_iff.mp hj).1; omega
      obtain ⟨i', h1, h2⟩ := l2 j xs[j] (List.getElem?_eq_getElem hjl)
      obtain rfl := Option.some.inj (hj.symm.trans h1)
      exact ⟨_, List.getElem_mem hjl, h2⟩
    · rintro ⟨x, hx, h⟩
      obtain ⟨j, hj⟩ := List.mem_iff_getElem?.mp hx
      obtain ⟨i', h1, h2⟩ := l2 j x hj
      have : i = i' := (List.getElem?_inj (List.getElem?_eq_some_iff.mp h).1 hn).mp (h.trans h2.symm)
      exact this ▸ List.mem_of_getElem? h1
  obtain ⟨-, u, -, hu, s1, s2, s3, -, s5, s6, s7, -⟩ := impulse_at (hq x0 hx0)
  obtain ⟨p, hp⟩ := impulse_succeeds (half := half) (ys := ys) (size := size) (exog := .many xs) his hu s1 s2 s3
    (fun i hi => by
      obtain ⟨x, -, h⟩ := (hmem i).mp hi
      exact (List.getElem?_eq_some_iff.mp h).1) s5 s6 s7
  obtain ⟨is', u', h1, hu', -, -, -, -, -, -, -, p1, p2, he⟩ := impulse_at hp
  obtain rfl : is = is' := Except.ok.inj (his.symm.trans h1)
  obtain rfl : u = u' := Except.ok.inj (hu.symm.trans hu')
  refine ⟨p, hp, p1, p2, fun k c => ?_⟩
  have hloc : ∀ x : String, ∃ i : Nat, x ∈ stoch → stoch[i]? = some x := by
    intro x
    by_cases h : x ∈ stoch
    · obtain ⟨i, hi⟩ := List.mem_iff_getElem?.mp h
      exact ⟨i, fun _ => hi⟩
    · exact ⟨0, fun h' => absurd h' h⟩
  choose loc hloc using hloc
  have hqe : ∀ x ∈ xs, (q x).e k c = size * unitDev t gy gu u (loc x) k c := by
    intro x hx
    obtain ⟨idx, u', h, hu', -, -, -, hlt, -, -, -, -, -, e⟩ := impulse_at (hq x hx)
    obtain rfl : u = u' := Except.ok.inj (hu.symm.trans hu')
    obtain ⟨i, rfl, hi⟩ := one x idx h
    have : i = loc x := (List.getElem?_inj (List.getElem?_eq_some_iff.mp hi).1 hn).mp (hi.trans (hloc x (hall x hx)).symm)
    subst this
    rw [e, sumTo_eq, Finset.sum_eq_single (loc x)]
    · rw [if_pos (List.mem_singleton.mpr rfl)]
    · intro l _ hl
      rw [if_neg (fun h => hl (List.mem_singleton.mp h))]
    · intro h
      exact absurd (Finset.mem_range.mpr (hlt _ (List.mem_singleton.mpr rfl))) h
  rw [he, sumTo_eq, ← Finset.sum_filter]
  have e1 : (xs.dedup.map fun x => (q x).e k c).sum = ∑ x ∈ xs.toFinset, (q x).e k c := by
    rw [← List.sum_toFinset _ xs.nodup_dedup]
    exact Finset.sum_congr (by ext; simp) fun _ _ => rfl
  rw [e1]
  symm
  refine Finset.sum_bij (fun x _ => loc x) ?_ ?_ ?_ ?_
  · intro x hx
    have hx := List.mem_toFinset.mp hx
    have h := hloc x (hall x hx)
    exact Finset.mem_filter.mpr ⟨Finset.mem_range.mpr (List.getElem?_eq_some_iff.mp h).1, (hmem _).mpr ⟨x, hx, h⟩⟩
  · intro a ha b hb e
    have h1 := hloc a (hall a (List.mem_toFinset.mp ha))
    have h2 := hloc b (hall b (List.mem_toFinset.mp hb))
    rw [e] at h1
    exact Option.some.inj (h1.symm.trans h2)
  · intro i hi
    obtain ⟨x, hx, h⟩ := (hmem i).mp (Finset.mem_filter.mp hi).2
    refine ⟨x, List.mem_toFinset.mpr hx, ?_⟩
    exact ((List.getElem?_inj (List.getElem?_eq_some_iff.mp h).1 hn).mp (h.trans (hloc x (hall x hx)).symm)).symm
  · intro x hx
    exact hqe x (List.mem_toFinset.mp hx)

/-! ### C156: simulations are sums of impulse responses -/

/-- **C156.** In a first-order simulation, the deviations from the steady state are those of the simulation without
shocks from the same initial values, and the responses to the shocks of all earlier periods, each as many periods after
its shock and times the number drawn for it. -/
theorem C156_sum_of_responses (hn : stoch.Nodup) (given p p0 : Arr V) (init : Option (List V)) (ir : Nat → Arr V)
    (h : simulate chol half t (.first gy gu) ys sigma given init = .ok p)
    (h0 : simulate chol half t (.first gy gu) ys sigma ⟨given.r, given.c, fun _ _ => 0⟩ init = .ok p0)
    (hir : ∀ (l : Nat) x, stoch[l]? = some x →
      impulseNamed chol half t (.first gy gu) ys sigma stoch (.one x) given.r 1 = .ok (ir l))
    (hc : given.c = stoch.length) (k c : Nat) :
    dev ys p k c = dev ys p0 k c + sumTo k fun s => sumTo stoch.length fun l => given.e s l * (ir l).e (k - s) c := by
  obtain ⟨u, hu, -, -, -, -, -, -, -, rfl⟩ := simulate_first_ok h
  obtain ⟨u', hu', -, -, -, -, -, -, -, rfl⟩ := simulate_first_ok h0
  obtain rfl : u = u' := Except.ok.inj (hu.symm.trans hu')
  simp only [dev, add_sub_cancel_right]
  rw [devFirst_average]
  congr 1
  · congr 1
    funext k i
    rw [sumTo_eq, Finset.sum_eq_zero fun l _ => zero_mul _]
  · refine sumTo_congr fun s _ => ?_
    rw [hc]
    refine sumTo_congr fun l hl => ?_
    congr 1
    obtain ⟨idx, u', g1, hu', -, -, -, -, -, -, -, -, -, e⟩ := impulse_at (hir l _ (List.getElem?_eq_getElem hl))
    obtain rfl : u = u' := Except.ok.inj (hu.symm.trans hu')
    obtain rfl : [l] = idx := Except.ok.inj ((index_one hn (List.getElem?_eq_getElem hl)).symm.trans g1)
    rw [e, sumTo_eq, Finset.sum_eq_single l]
    · rw [if_pos (List.mem_singleton.mpr rfl), one_mul]
    · intro b _ hb
      rw [if_neg (fun h => hb (List.mem_singleton.mp h))]
    · intro h
      exact absurd (Finset.mem_range.mpr hl) h

end

/-! ### the hypotheses can be met -/

/-- the responses to two correlated shocks, and to both at once -/
theorem ip_responses : ∃ p q r : Arr ℚ,
    impulseNamed smChol (1/2) smT (.first smGy smGu) smYs smSigma ["e", "f"] (.one "e") 3 1 = .ok p ∧
    impulseNamed smChol (1/2) smT (.first smGy smGu) smYs smSigma ["e", "f"] (.one "f") 3 1 = .ok q ∧
    impulseNamed smChol (1/2) smT (.first smGy smGu) smYs smSigma ["e", "f"] (.many ["f", "e", "f"]) 3 1 = .ok r ∧
    q.e 1 0 = 3 ∧ r.e 1 0 = p.e 1 0 + 3 ∧ p.e 1 0 ≠ 0 := by
  obtain ⟨p, hp, c⟩ := ok_of_check
    (x := impulseNamed smChol (1/2) smT (.first smGy smGu) smYs smSigma ["e", "f"] (.one "e") 3 1)
    (p := fun p => okAnd (impulseNamed smChol (1/2) smT (.first smGy smGu) smYs smSigma ["e", "f"] (.one "f") 3 1) fun q =>
      okAnd (impulseNamed smChol (1/2) smT (.first smGy smGu) smYs smSigma ["e", "f"] (.many ["f", "e", "f"]) 3 1) fun r =>
      decide (q.e 1 0 = 3 ∧ r.e 1 0 = p.e 1 0 + 3 ∧ p.e 1 0 ≠ 0)) (by decide +kernel)
  obtain ⟨q, hq, c⟩ := ok_of_check c
  obtain ⟨r, hr, c⟩ := ok_of_check c
  exact ⟨p, q, r, hp, hq, hr, of_decide_eq_true c⟩

example : ["e", "f"].Nodup ∧ smSigma.r = ["e", "f"].length ∧
    ∃ p, impulseNamed smChol (1/2) smT (.first smGy smGu) smYs smSigma ["e", "f"] .none 3 1 = .ok p := by
  obtain ⟨p, -, -, hp, -⟩ := ip_responses
  exact ⟨by decide, rfl, p, ((C155_default (.first smGy smGu) (by decide) 3 (1 : ℚ)).1 "e" rfl).trans hp⟩

/-- a simulation as a sum of responses: all hypotheses are met -/
example : ∃ p p0 : Arr ℚ, ∃ ir : Nat → Arr ℚ,
    simulate smChol (1/2) smT (.first smGy smGu) smYs smSigma (listArr [[1, 2], [3, -1], [0, 0]] 2) (some [2, 2]) = .ok p ∧
    simulate smChol (1/2) smT (.first smGy smGu) smYs smSigma ⟨3, 2, fun _ _ => 0⟩ (some [2, 2]) = .ok p0 ∧
    (∀ (l : Nat) x, ["e", "f"][l]? = some x →
      impulseNamed smChol (1/2) smT (.first smGy smGu) smYs smSigma ["e", "f"] (.one x) 3 1 = .ok (ir l)) ∧
    dev smYs p 2 0 ≠ dev smYs p0 2 0 := by
  obtain ⟨p, hp, c⟩ := ok_of_check (x := simulate smChol (1/2) smT (.first smGy smGu) smYs smSigma
      (listArr [[1, 2], [3, -1], [0, 0]] 2) (some [2, 2]))
    (p := fun p => okAnd (simulate smChol (1/2) smT (.first smGy smGu) smYs smSigma ⟨3, 2, fun _ _ => 0⟩ (some [2, 2]))
      fun p0 => decide (dev smYs p 2 0 ≠ dev smYs p0 2 0)) (by decide +kernel)
  obtain ⟨p0, hp0, c⟩ := ok_of_check c
  obtain ⟨a, b, -, ha, hb, -⟩ := ip_responses
  refine ⟨p, p0, fun l => if l = 0 then a else b, hp, hp0, fun l x hx => ?_, of_decide_eq_true c⟩
  have hl : l < 2 := (List.getElem?_eq_some_iff.mp hx).1
  interval_cases l
  · obtain rfl := Option.some.inj hx
    exact ha
  · obtain rfl := Option.some.inj hx
    exact hb

#print axioms C155_one
#print axioms C155_default
#print axioms C155_unknown
#print axioms C155_joint
#print axioms C156_sum_of_responses

end Pynare
