import Verif.Spec.OccBin
import Verif.Lemmas.Sylvester
/-!
# Lemmas for occasionally binding constraints
-/

namespace Pynare

variable {V : Type}

/-! ### locating regimes -/

theorem locateFrom_cons (latest : Bool) (i : Nat) (b : Bool) (bs : List Bool) :
    locateFrom latest i (b :: bs) =
      ((if b ≠ latest then [i] else []) ++ (locateFrom b (i + 1) bs).1,
       (if b ≠ latest then [b] else []) ++ (locateFrom b (i + 1) bs).2) := by
  rw [locateFrom]
  by_cases h : b = latest
  · subst h; simp
  · simp [h]

theorem locateFrom_mem : ∀ (bs : List Bool) (latest : Bool) (i j : Nat),
    j ∈ (locateFrom latest i bs).1 ↔
      ∃ k, j = i + k ∧ k < bs.length ∧ (latest :: bs)[k + 1]? ≠ (latest :: bs)[k]?
  | [], latest, i, j => by simp [locateFrom]
  | b :: bs, latest, i, j => by
    rw [locateFrom_cons]
    simp only [List.mem_append, locateFrom_mem bs b (i + 1) j]
    constructor
    · rintro (h | ⟨k, rfl, hk, hne⟩)
      · by_cases hb : b = latest
        · simp [hb] at h
        · simp only [ne_eq, hb, not_false_eq_true, if_true, List.mem_singleton] at h
          exact ⟨0, by omega, by simp, by simpa using hb⟩
      · exact ⟨k + 1, by omega, by simpa using hk, by simpa using hne⟩
    · rintro ⟨k, rfl, hk, hne⟩
      cases k with
      | zero =>
        left
        have : b ≠ latest := by simpa using hne
        simp [this]
      | succ k =>
        right
        exact ⟨k, by omega, by simpa using hk, by simpa using hne⟩

theorem locateFrom_sorted : ∀ (bs : List Bool) (latest : Bool) (i : Nat),
    (locateFrom latest i bs).1.Pairwise (· < ·)
  | [], _, _ => by simp [locateFrom]
  | b :: bs, latest, i => by
    rw [locateFrom_cons]
    simp only [List.pairwise_append]
    refine ⟨by split <;> simp, locateFrom_sorted bs b (i + 1), ?_⟩
    intro a ha c hc
    obtain ⟨k, rfl, -, -⟩ := (locateFrom_mem bs b (i + 1) c).mp hc
    by_cases hb : b = latest
    · simp [hb] at ha
    · simp only [ne_eq, hb, not_false_eq_true, if_true, List.mem_singleton] at ha
      omega

theorem locateFrom_regimes : ∀ (bs : List Bool) (latest : Bool) (i : Nat),
    (locateFrom latest i bs).2.map some = (locateFrom latest i bs).1.map fun j => bs[j - i]?
  | [], _, _ => by simp [locateFrom]
  | b :: bs, latest, i => by
    rw [locateFrom_cons]
    simp only [List.map_append, locateFrom_regimes bs b (i + 1)]
    congr 1
    · by_cases hb : b = latest <;> simp [hb]
    · apply List.map_congr_left
      intro j hj
      obtain ⟨k, rfl, -, -⟩ := (locateFrom_mem bs b (i + 1) j).mp hj
      rw [show i + 1 + k - (i + 1) = k by omega, show i + 1 + k - i = k + 1 by omega]
      rfl

/-- from the last reported position on the sequence is constant, and before it is the other value -/
theorem locateFrom_last : ∀ (bs : List Bool) (latest : Bool) (i : Nat),
    match (locateFrom latest i bs).1.getLast? with
    | none => ∀ (k : Nat) (b : Bool), (latest :: bs)[(k : Nat)]? = some b → b = latest
    | some j => ∃ (k : Nat) (c : Bool), j = i + k ∧ (latest :: bs)[k]? = some (!c) ∧
        ∀ (k' : Nat) (b : Bool), k < k' → (latest :: bs)[k']? = some b → b = c
  | [], latest, i => by
    simp only [locateFrom, List.getLast?_nil]
    intro k b h
    cases k with
    | zero => simpa using h.symm
    | succ k => simp at h
  | b :: bs, latest, i => by
    rw [locateFrom_cons]
    simp only
    have ih := locateFrom_last bs b (i + 1)
    cases hl : (locateFrom b (i + 1) bs).1.getLast? with
    | none =>
      rw [hl] at ih
      simp only at ih
      have hnil : (locateFrom b (i + 1) bs).1 = [] := List.getLast?_eq_none_iff.mp hl
      rw [hnil, List.append_nil]
      by_cases hb : b = latest
      · subst hb
        simp only [ne_eq, not_true, if_false, List.getLast?_nil]
        intro k c h
        cases k with
        | zero => simpa using h.symm
        | succ k => exact ih k c (by simpa using h)
      · simp only [hb, ne_eq, not_false_eq_true, if_true, List.getLast?_singleton]
        refine ⟨0, b, by omega, ?_, ?_⟩
        · cases b <;> cases latest <;> simp_all
        · intro k' c hk h
          obtain ⟨k, rfl⟩ : ∃ k, k' = k + 1 := ⟨k' - 1, by omega⟩
          exact ih k c (by simpa using h)
    | some j =>
      rw [hl] at ih
      simp only at ih
      obtain ⟨k, c, rfl, h1, h2⟩ := ih
      have : ((if b ≠ latest then [i] else []) ++ (locateFrom b (i + 1) bs).1).getLast? =
          some (i + 1 + k) := by
        rw [List.getLast?_append, hl]; rfl
      rw [this]
      refine ⟨k + 1, c, by omega, by simpa using h1, ?_⟩
      intro k' d hk h
      obtain ⟨l, rfl⟩ : ∃ l, k' = l + 1 := ⟨k' - 1, by omega⟩
      exact h2 l d (by omega) (by simpa using h)

theorem dropLast_getElem? {α : Type} (l : List α) (k : Nat) :
    l.dropLast[k]? = if k + 1 < l.length then l[k]? else none := by
  rw [List.dropLast_eq_take, List.getElem?_take]
  by_cases h : k + 1 < l.length
  · rw [if_pos (by omega), if_pos h]
  · rw [if_neg (by omega), if_neg h]

theorem cons_dropLast_getElem? {α : Type} (v : α) (vs : List α) (k : Nat) :
    (v :: vs.dropLast)[k]? = if k = 0 ∨ k < vs.length then (v :: vs)[k]? else none := by
  cases k with
  | zero => simp
  | succ k =>
    rw [List.getElem?_cons_succ, dropLast_getElem?, List.getElem?_cons_succ]
    simp

/-- where the last regime begins, and what holds from there on, for a guess whose last entry but one is
the reference regime -/
theorem locateRegimes_last {hypo : List Bool} {p : Nat} (hl : hypo.length = p + 1) (hp : 0 < p)
    (hend : hypo[p - 1]? = some false) :
    ∃ s l, locateRegimes hypo = .ok (s, l) ∧ s.getLast?.getD 0 < p ∧
      (0 < s.getLast?.getD 0 → hypo[s.getLast?.getD 0 - 1]? = some true) ∧
      ∀ k, s.getLast?.getD 0 ≤ k → k < p → hypo[k]? = some false := by
  cases hypo with
  | nil => simp at hl
  | cons v vs =>
    have hvs : vs.length = p := by simpa using hl
    refine ⟨_, _, rfl, ?_⟩
    have key := locateFrom_last vs.dropLast v 1
    have get : ∀ k, k < p → (v :: vs.dropLast)[k]? = (v :: vs)[k]? := by
      intro k hk
      rw [cons_dropLast_getElem?, if_pos (Or.inr (by omega))]
    cases hg : (locateFrom v 1 vs.dropLast).1.getLast? with
    | none =>
      rw [hg] at key
      simp only at key
      have : (locateFrom v 1 vs.dropLast).1 = [] := List.getLast?_eq_none_iff.mp hg
      rw [this]
      simp only [List.getLast?_singleton, Option.getD_some]
      have hv : false = v := key (p - 1) false (by rw [get _ (by omega)]; exact hend)
      refine ⟨hp, by simp, ?_⟩
      intro k _ hk
      obtain ⟨b, hb⟩ : ∃ b, (v :: vs)[k]? = some b :=
        ⟨_, List.getElem?_eq_getElem (by simp; omega)⟩
      rw [hb, key k b (by rw [get _ hk]; exact hb), ← hv]
    | some j =>
      rw [hg] at key
      simp only at key
      obtain ⟨k, c, rfl, h1, h2⟩ := key
      have e : (0 :: (locateFrom v 1 vs.dropLast).1).getLast?.getD 0 = 1 + k := by
        rw [List.getLast?_cons, hg]; rfl
      have hm : 1 + k ∈ (locateFrom v 1 vs.dropLast).1 := List.mem_of_getLast? hg
      obtain ⟨k', e', hk', -⟩ := (locateFrom_mem _ _ _ _).mp hm
      have hkp : 1 + k < p := by
        rw [List.length_dropLast] at hk'; omega
      rw [e]
      have hc : false = c := h2 (p - 1) false (by omega) (by rw [get _ (by omega)]; exact hend)
      refine ⟨hkp, ?_, ?_⟩
      · intro _
        rw [show 1 + k - 1 = k by omega, ← get k (by omega), h1, ← hc]; rfl
      · intro l hl1 hl2
        obtain ⟨b, hb⟩ : ∃ b, (v :: vs)[l]? = some b :=
          ⟨_, List.getElem?_eq_getElem (by simp; omega)⟩
        rw [hb, h2 l b (by omega) (by rw [get _ hl2]; exact hb), ← hc]

/-! ### vectors -/

section
variable [CommRing V]

theorem mulVec_congr {a : Arr V} {x y : Nat → V} (h : ∀ j < a.c, x j = y j) (i : Nat) :
    mulVec a x i = mulVec a y i := sumTo_congr fun j hj => by rw [h j hj]

theorem mulVec_add (a : Arr V) (x y : Nat → V) (i : Nat) :
    mulVec a (fun j => x j + y j) i = mulVec a x i + mulVec a y i := by
  simp only [mulVec, sumTo_eq, ← Finset.sum_add_distrib, mul_add]

theorem mulVec_neg (a : Arr V) (x : Nat → V) (i : Nat) :
    mulVec a (fun j => - x j) i = - mulVec a x i := by
  simp only [mulVec, sumTo_eq, ← Finset.sum_neg_distrib, mul_neg]

theorem mulVec_zero (a : Arr V) (i : Nat) : mulVec a (fun _ => 0) i = 0 := by
  simp [mulVec, sumTo_eq]

theorem neg_mulVec' (a : Arr V) (x : Nat → V) (i : Nat) : mulVec a.neg x i = - mulVec a x i := by
  simp only [mulVec, sumTo_eq, ← Finset.sum_neg_distrib, Arr.neg, neg_mul]

theorem mulVec_matMul (a b : Arr V) (x : Nat → V) (i : Nat) :
    mulVec (matMul a b) x i = mulVec a (mulVec b x) i := by
  simp only [mulVec, matMul, sumTo_eq, Finset.sum_mul, Finset.mul_sum]
  rw [Finset.sum_comm]
  exact Finset.sum_congr rfl fun k _ => Finset.sum_congr rfl fun j _ => mul_assoc _ _ _

theorem mulVec_matAdd {a b : Arr V} (h : a.c = b.c) (x : Nat → V) (i : Nat) :
    mulVec (matAdd a b) x i = mulVec a x i + mulVec b x i := by
  simp only [mulVec, matAdd, sumTo_eq, ← h, ← Finset.sum_add_distrib, add_mul]

theorem mulVec_inv {a b : Arr V} {n : Nat} (h : a.IsInv b) (ha : a.r = n) (x : Nat → V) {i : Nat}
    (hi : i < n) : mulVec a (mulVec b x) i = x i := by
  obtain ⟨⟨h1, h2, h3, h4⟩, h5⟩ := h
  rw [← mulVec_matMul]
  have hb : b.c = n := by rw [← ha]; exact h3.symm
  have : mulVec (matMul a b) x i = sumTo n fun j => (if j = i then (1 : V) else 0) * x j := by
    show sumTo b.c _ = _
    rw [hb]
    refine sumTo_congr fun j hj => ?_
    have := h4 i (by omega) j (by omega)
    simp only [Arr.eye, Nat.add_zero] at this
    show (sumTo a.c fun k => a.e i k * b.e k j) * x j = _
    rw [this]
  rw [this, sumTo_eq, Finset.sum_eq_single i]
  · simp
  · intro j _ hj; simp [hj]
  · intro h'; exact absurd (Finset.mem_range.mpr hi) h'

/-- the algebra of one period -/
theorem period_eq {A B C Pn inv : Arr V} {n : Nat} (hA : A.r = n ∧ A.c = n) (hB : B.r = n ∧ B.c = n)
    (hPc : Pn.c = n) (hI : (matAdd (matMul A Pn) B).IsInv inv)
    {D Dn ym y yp w : Nat → V}
    (hy : ∀ i < n, y i = - mulVec inv (fun i => mulVec C ym i + (mulVec A Dn i + D i) + w i) i)
    (hyp : ∀ i < n, yp i = mulVec Pn y i + Dn i) :
    ∀ i < n, mulVec A yp i + mulVec B y i + mulVec C ym i + w i + D i = 0 := by
  intro i hi
  have hX : (matAdd (matMul A Pn) B).r = n := hA.1
  have h1 : mulVec A yp i = mulVec (matMul A Pn) y i + mulVec A Dn i := by
    rw [mulVec_congr (y := fun j => mulVec Pn y j + Dn j) (fun j hj => hyp j (by omega)), mulVec_add,
      mulVec_matMul]
  have h2 : mulVec (matMul A Pn) y i + mulVec B y i = mulVec (matAdd (matMul A Pn) B) y i :=
    (mulVec_matAdd (show (matMul A Pn).c = B.c from hPc.trans hB.2.symm) y i).symm
  have h3 : mulVec (matAdd (matMul A Pn) B) y i =
      - (mulVec C ym i + (mulVec A Dn i + D i) + w i) := by
    rw [mulVec_congr (y := fun i => - mulVec inv (fun i => mulVec C ym i + (mulVec A Dn i + D i) + w i) i)
      (fun j hj => hy j (by
        have hj : j < Pn.c := hj
        omega)), mulVec_neg, mulVec_inv hI hX _ hi]
  rw [h1]
  linear_combination h2 + h3

theorem invChecked_ok {la : LinAlg V} (ex : la.Exact) {a b : Arr V} (h : la.invChecked a = .ok b) :
    a.IsInv b := by
  unfold LinAlg.invChecked at h
  split at h
  · rename_i hs; exact ex.inv a b hs h
  · cases h

/-! ### the piecewise linear path -/

theorem rules_down {la : LinAlg V} {gy : Arr V} {coef : Nat → Regime V} {last : Nat} :
    ∀ (d k : Nat) {r : Rule V}, rules la gy coef last (k + d) = .ok r → ∃ r', rules la gy coef last k = .ok r'
  | 0, _, r, h => ⟨r, h⟩
  | d + 1, k, r, h => by
    rw [show k + (d + 1) = k + d + 1 by omega, rules] at h
    obtain ⟨r', h', -⟩ := Except.bind_eq_ok h
    exact rules_down d k h'

theorem piecewise_ok {la : LinAlg V} {gy gu : Arr V} {coef : Nat → Regime V} {start : Nat}
    {init innov : Nat → V} {g : Nat → Nat → V} (h : piecewise la gy gu coef start init innov = .ok g) :
    (∀ k, g k = history gy gu coef (ruleOf la gy coef start) start init innov (k + 1)) ∧
    ∀ i < start, rules la gy coef (start - 1) (start - 1 - i) = .ok (ruleOf la gy coef start i) := by
  unfold piecewise at h
  obtain ⟨_, h', h⟩ := Except.bind_eq_ok h
  refine ⟨fun k => by rw [← Except.ok.inj h], ?_⟩
  intro i hi
  unfold rulesDefined at h'
  rw [if_neg (by omega)] at h'
  cases hr : rules la gy coef (start - 1) (start - 1) with
  | error e => rw [hr] at h'; cases h'
  | ok r =>
    obtain ⟨r', hr'⟩ := rules_down (k := start - 1 - i) i (r := r) (by
      rw [show start - 1 - i + i = start - 1 by omega]; exact hr)
    rw [hr']
    unfold ruleOf
    simp only [hr']

/-- what follows a period: the rule of the next period, or the linear one -/
theorem rule_eq {la : LinAlg V} (ex : la.Exact) {gy : Arr V} {coef : Nat → Regime V} {start : Nat}
    (hr : ∀ i < start, rules la gy coef (start - 1) (start - 1 - i) = .ok (ruleOf la gy coef start i))
    {i : Nat} (hi : i < start) :
    let next : Arr V × (Nat → V) := if i + 1 < start then
      ((ruleOf la gy coef start (i + 1)).P, (ruleOf la gy coef start (i + 1)).D) else (gy, fun _ => 0)
    let r := ruleOf la gy coef start i
    (matAdd (matMul (coef i).A next.1) (coef i).B).IsInv r.inv ∧ r.P = (matMul r.inv (coef i).C).neg ∧
      ∀ j, r.D j = - mulVec r.inv (fun i' => mulVec (coef i).A next.2 i' + (coef i).D i') j := by
  intro next r
  have h := hr i hi
  by_cases h1 : i + 1 < start
  · have h2 := hr (i + 1) h1
    rw [show start - 1 - i = (start - 1 - (i + 1)) + 1 by omega, rules, h2] at h
    rw [bind_ok_of_eq _ rfl] at h
    obtain ⟨inv, hinv, h⟩ := Except.bind_eq_ok h
    have e := Except.ok.inj h
    rw [show start - 1 - (start - 1 - (i + 1) + 1) = i by omega] at hinv e
    have hn : next = ((ruleOf la gy coef start (i + 1)).P, (ruleOf la gy coef start (i + 1)).D) :=
      if_pos h1
    rw [hn]
    refine ⟨?_, ?_, ?_⟩
    · rw [show r = ruleOf la gy coef start i from rfl, ← e]; exact invChecked_ok ex hinv
    · rw [show r = ruleOf la gy coef start i from rfl, ← e]
    · rw [show r = ruleOf la gy coef start i from rfl, ← e]
      intro j; rfl
  · have e0 : start - 1 - i = 0 := by omega
    rw [e0, rules] at h
    obtain ⟨inv, hinv, h⟩ := Except.bind_eq_ok h
    have e := Except.ok.inj h
    rw [show start - 1 = i by omega] at hinv e
    have hn : next = (gy, fun _ => 0) := if_neg h1
    rw [hn]
    refine ⟨?_, ?_, ?_⟩
    · rw [show r = ruleOf la gy coef start i from rfl, ← e]; exact invChecked_ok ex hinv
    · rw [show r = ruleOf la gy coef start i from rfl, ← e]
    · rw [show r = ruleOf la gy coef start i from rfl, ← e]
      intro j
      show - mulVec inv (coef i).D j = _
      congr 1
      exact mulVec_congr (fun k _ => by dsimp only; rw [mulVec_zero, zero_add]) j

theorem linear_eq {r : Regime V} {n m : Nat} (hf : r.Fits n m) (i : Nat) (ym y yp u : Nat → V) :
    r.linear n m i ym y yp u = mulVec r.A yp i + mulVec r.B y i + mulVec r.C ym i + mulVec r.E u i := by
  unfold Regime.linear mulVec
  rw [hf.A.2, hf.B.2, hf.C.2, hf.E.2]

/-- the equations of the regimes hold along a piecewise linear path -/
theorem piecewise_satisfies {la : LinAlg V} (ex : la.Exact) {gy gu : Arr V} {n m : Nat}
    (hgy : gy.r = n ∧ gy.c = n) (hgu : gu.c = m) {ref : Regime V} (hs : SolvesReference ref gy gu n m)
    {coef : Nat → Regime V} {start : Nat} (hc : ∀ k < start, (coef k).Fits n m)
    {init innov : Nat → V} {g : Nat → Nat → V} (h : piecewise la gy gu coef start init innov = .ok g) :
    ∀ k, ∀ i < n, (if k < start then coef k else ref).linear n m i (before init g k) (g k) (g (k + 1))
      (shockAt innov k) + (if k < start then (coef k).D i else 0) = 0 := by
  obtain ⟨hg, hr⟩ := piecewise_ok h
  have hist : ∀ k, before init g k = history gy gu coef (ruleOf la gy coef start) start init innov k := by
    intro k
    cases k with
    | zero => rw [history]; rfl
    | succ k => exact hg k
  intro k i hi
  by_cases hk : k < start
  · rw [if_pos hk, if_pos hk]
    have hf := hc k hk
    rw [linear_eq hf]
    have hrule := rule_eq ex hr hk
    simp only at hrule
    obtain ⟨hI, hP, hD⟩ := hrule
    refine period_eq hf.A hf.B ?_ hI (Dn := (if k + 1 < start then
      ((ruleOf la gy coef start (k + 1)).P, (ruleOf la gy coef start (k + 1)).D) else (gy, fun _ => 0)).2)
      (w := fun i => mulVec (coef k).E (shockAt innov k) i) ?_ ?_ i hi
    · by_cases h1 : k + 1 < start
      · rw [if_pos h1]
        have := (rule_eq ex hr h1).2.1
        rw [this]
        exact (hc (k + 1) h1).C.2
      · rw [if_neg h1]; exact hgy.2
    · intro j hj
      have expand : - mulVec (ruleOf la gy coef start k).inv (fun i => mulVec (coef k).C (before init g k) i +
          (mulVec (coef k).A (if k + 1 < start then ((ruleOf la gy coef start (k + 1)).P,
            (ruleOf la gy coef start (k + 1)).D) else (gy, fun _ => 0)).2 i + (coef k).D i) +
          mulVec (coef k).E (shockAt innov k) i) j =
        mulVec (ruleOf la gy coef start k).P (before init g k) j + (ruleOf la gy coef start k).D j +
          mulVec (matMul (ruleOf la gy coef start k).inv (coef k).E).neg (shockAt innov k) j := by
        rw [mulVec_add, mulVec_add, hP, hD, neg_mulVec', neg_mulVec', mulVec_matMul, mulVec_matMul]
        ring
      rw [expand, hist, hg]
      cases k with
      | zero =>
        show history gy gu coef (ruleOf la gy coef start) start init innov 1 j = _
        have e : history gy gu coef (ruleOf la gy coef start) start init innov 1 =
            fun i => mulVec (ruleOf la gy coef start 0).P init i + (ruleOf la gy coef start 0).D i +
              mulVec (matMul (ruleOf la gy coef start 0).inv (coef 0).E).neg innov i := by
          rw [history]; exact if_pos hk
        rw [e]
        rfl
      | succ k =>
        rw [history, if_pos hk]
        have : shockAt innov (k + 1) = fun _ => 0 := rfl
        rw [this, mulVec_zero, add_zero]
    · intro j hj
      rw [hg (k + 1), history]
      by_cases h1 : k + 1 < start
      · rw [if_pos h1, if_pos h1, hg k]
      · rw [if_neg h1, if_neg h1, hg k, add_zero]
  · rw [if_neg hk, if_neg hk, add_zero]
    have hk1 : ¬ k + 1 < start := by omega
    have hyp : ∀ i < n, g (k + 1) i = sumTo n fun j => gy.e i j * g k j := by
      intro i _
      rw [hg (k + 1), history, if_neg hk1, hg k]
      unfold mulVec
      rw [hgy.2]
    refine hs (before init g k) (g k) (g (k + 1)) (shockAt innov k) ?_ hyp i hi
    intro i _
    rw [hg k]
    cases k with
    | zero =>
      rw [history, if_neg hk]
      unfold mulVec
      rw [hgy.2, hgu]; rfl
    | succ k =>
      rw [history, if_neg hk]
      have : (sumTo m fun l => gu.e i l * shockAt innov (k + 1) l) = 0 := by
        simp [shockAt, sumTo_eq]
      rw [this, add_zero, ← hg k]
      unfold mulVec
      rw [hgy.2]; rfl

/-- without an alternative regime the path is the linear one -/
theorem piecewise_linear {la : LinAlg V} {gy gu : Arr V} {n m : Nat} (hgy : gy.c = n) (hgu : gu.c = m)
    (coef : Nat → Regime V) (init innov : Nat → V) :
    piecewise la gy gu coef 0 init innov = .ok (linearPath n m gy gu init innov) := by
  unfold piecewise rulesDefined
  rw [if_pos rfl, bind_ok_of_eq _ rfl]
  congr 1
  funext k
  induction k with
  | zero =>
    rw [history, if_neg (by omega), linearPath]
    unfold mulVec
    rw [hgy, hgu]
  | succ k ih =>
    rw [history, if_neg (by omega), linearPath]
    simp only [ih]
    unfold mulVec
    rw [hgy]

end

/-! ### the loops -/

theorem mismatch_false {h b r : List Bool} (hb : b.length = h.length) (hr : r.length = h.length) :
    mismatch h b r = false ↔
      (∀ k : Nat, b[k]? = some true → h[k]? = some true) ∧ (∀ k : Nat, h[k]? = some true → r[k]? = some false) := by
  unfold mismatch
  rw [Bool.or_eq_false_iff, Bool.not_eq_false', List.all_eq_true]
  constructor
  · rintro ⟨h1, h2⟩
    constructor
    · intro k hk
      have hlt : k < b.length := by
        by_contra hc; rw [List.getElem?_eq_none (by omega)] at hk; cases hk
      have hz : (h.zip b)[k]? = some (h[k]'(by omega), b[k]) := by
        rw [List.getElem?_eq_getElem (by simp; omega)]; simp
      have := h1 _ (List.mem_of_getElem? hz)
      rw [List.getElem?_eq_getElem hlt, Option.some.injEq] at hk
      rw [List.getElem?_eq_getElem (by omega)]
      simpa [hk] using this
    · intro k hk
      have hlt : k < h.length := by
        by_contra hc; rw [List.getElem?_eq_none (by omega)] at hk; cases hk
      have hz : (h.zip r)[k]? = some (h[k], r[k]'(by omega)) := by
        rw [List.getElem?_eq_getElem (by simp; omega)]; simp
      rw [List.any_eq_false] at h2
      have := h2 _ (List.mem_of_getElem? hz)
      rw [List.getElem?_eq_getElem hlt, Option.some.injEq] at hk
      rw [List.getElem?_eq_getElem (by omega)]
      simpa [hk] using this
  · rintro ⟨h1, h2⟩
    constructor
    · intro p hp
      obtain ⟨k, hk⟩ := List.getElem?_of_mem hp
      rw [List.getElem?_zip_eq_some] at hk
      obtain ⟨ha, hb'⟩ := hk
      cases hp2 : p.2
      · simp
      · rw [hp2] at hb'
        have := h1 k hb'
        rw [ha] at this
        simpa using this
    · rw [List.any_eq_false]
      intro p hp
      obtain ⟨k, hk⟩ := List.getElem?_of_mem hp
      rw [List.getElem?_zip_eq_some] at hk
      obtain ⟨ha, hb'⟩ := hk
      cases hp1 : p.1
      · simp
      · rw [hp1] at ha
        have := h2 k ha
        rw [hb'] at this
        simpa using this

theorem updateHypo_length {h b r : List Bool} (hb : b.length = h.length) (hr : r.length = h.length) :
    (updateHypo h b r).length = h.length := by
  simp [updateHypo, hb, hr]

theorem updateHypo_same {h b r : List Bool} (hb : b.length = h.length) (hr : r.length = h.length)
    (hm : mismatch h b r = false) : updateHypo h b r = h := by
  obtain ⟨h1, h2⟩ := (mismatch_false hb hr).mp hm
  apply List.ext_getElem? fun k => ?_
  by_cases hk : k < h.length
  · have e : (updateHypo h b r)[k]? = some ((h[k] || b[k]) && !(h[k] && r[k])) := by
      rw [List.getElem?_eq_getElem (by rw [updateHypo_length hb hr]; exact hk)]
      simp [updateHypo]
    rw [e, List.getElem?_eq_getElem hk]
    congr 1
    have a1 := h1 k
    have a2 := h2 k
    rw [List.getElem?_eq_getElem (by omega)] at a1
    rw [List.getElem?_eq_getElem hk] at a1 a2
    rw [List.getElem?_eq_getElem (by omega)] at a2
    simp only [Option.some.injEq] at a1 a2
    cases hh : h[k] <;> cases hbb : b[k] <;> cases hrr : r[k] <;> simp_all
  · rw [List.getElem?_eq_none (l := h) (by omega),
      List.getElem?_eq_none (by rw [updateHypo_length hb hr]; omega)]

/-- how a loop that stops on its own has ended -/
theorem guessLoop_stopped {H P : Type} {sim : H → Except Err P} {wrong : H → P → Bool} {update : H → P → H}
    (inv : H → Prop) (hinv : ∀ h g, inv h → inv (update h g)) :
    ∀ (n : Nat) (h : H) (g0 : Option P) {h' : H} {g : Option P}, inv h →
      guessLoop sim wrong update n h g0 = .ok (h', g, false) →
      ∃ h1 g1, inv h1 ∧ sim h1 = .ok g1 ∧ wrong h1 g1 = false ∧ h' = update h1 g1 ∧ g = some g1
  | 0, h, g0, h', g, _, hl => by simp [guessLoop] at hl
  | n + 1, h, g0, h', g, hi, hl => by
    rw [guessLoop] at hl
    obtain ⟨g1, hg1, hl⟩ := Except.bind_eq_ok hl
    split at hl
    · exact guessLoop_stopped inv hinv n _ _ (hinv h g1 hi) hl
    · rename_i hw
      have := Except.ok.inj hl
      simp only [Prod.mk.injEq, and_true] at this
      obtain ⟨rfl, rfl⟩ := this
      exact ⟨h, g1, hi, hg1, by simpa using hw, rfl, rfl⟩

theorem tests_length (p : Nat) (t : (Nat → V) → Bool) (g : Nat → Nat → V) :
    (tests p t g).length = p + 1 := by simp [tests]

theorem tests_get {p : Nat} {t : (Nat → V) → Bool} {g : Nat → Nat → V} {k : Nat} (hk : k ≤ p) :
    (tests p t g)[k]? = some (t (g k)) := by
  rw [tests, List.getElem?_map, List.getElem?_range (by omega)]; rfl

end Pynare
