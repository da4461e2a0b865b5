import Verif.Spec.OccTime
import Verif.Lemmas.OccBin
import Verif.Lemmas.OccBinLoop
/-!
# Lemmas on constrained solutions over time
-/

namespace Pynare

variable {V : Type} [CommRing V]

set_option linter.unusedSectionVars false

/-! ### paths with the same arrays -/

theorem rules_congr {la : LinAlg V} {gy : Arr V} {coef coef' : Nat → Regime V} {last : Nat}
    (h : ∀ i ≤ last, coef i = coef' i) : ∀ k, k ≤ last → rules la gy coef last k = rules la gy coef' last k
  | 0, _ => by rw [rules, rules, h last (Nat.le_refl _)]
  | k + 1, hk => by rw [rules, rules, rules_congr h k (by omega), h _ (by omega)]

theorem ruleOf_congr {la : LinAlg V} {gy : Arr V} {coef coef' : Nat → Regime V} {start : Nat}
    (h : ∀ i < start, coef i = coef' i) (hs : 0 < start) (i : Nat) :
    ruleOf la gy coef start i = ruleOf la gy coef' start i := by
  unfold ruleOf
  rw [rules_congr (fun j hj => h j (by omega)) _ (by omega)]

theorem history_congr {gy gu : Arr V} {coef coef' : Nat → Regime V} {rule rule' : Nat → Rule V} {start : Nat}
    (h : ∀ i < start, coef i = coef' i) (hr : ∀ i < start, rule i = rule' i) (init innov : Nat → V) :
    ∀ k, history gy gu coef rule start init innov k = history gy gu coef' rule' start init innov k
  | 0 => rfl
  | 1 => by
    rw [history, history]
    by_cases hs : 0 < start
    · rw [if_pos hs, if_pos hs, h 0 hs, hr 0 hs]
    · rw [if_neg hs, if_neg hs]
  | k + 2 => by
    rw [history, history, history_congr h hr init innov (k + 1)]
    by_cases hs : k + 1 < start
    · simp only [if_pos hs, hr _ hs]
    · simp only [if_neg hs]

theorem piecewise_congr {la : LinAlg V} {gy gu : Arr V} {coef coef' : Nat → Regime V} {start : Nat}
    (h : ∀ i < start, coef i = coef' i) (init innov : Nat → V) :
    piecewise la gy gu coef start init innov = piecewise la gy gu coef' start init innov := by
  unfold piecewise
  have h1 : rulesDefined la gy coef start = rulesDefined la gy coef' start := by
    unfold rulesDefined
    by_cases hs : start = 0
    · rw [if_pos hs, if_pos hs]
    · rw [if_neg hs, if_neg hs, rules_congr (fun j hj => h j (by omega)) _ (Nat.le_refl _)]
  rw [h1]
  congr 1
  funext _
  congr 1
  funext k
  exact history_congr h (fun i hi => ruleOf_congr h (by omega) i) init innov (k + 1)

/-! ### one period later -/

theorem rules_shift {la : LinAlg V} {gy : Arr V} {coef coef' : Nat → Regime V} {last : Nat}
    (h : ∀ i ≤ last, coef' i = coef (i + 1)) : ∀ k, k ≤ last → rules la gy coef' last k = rules la gy coef (last + 1) k
  | 0, _ => by rw [rules, rules, h last (Nat.le_refl _)]
  | k + 1, hk => by
    rw [rules, rules, rules_shift h k (by omega), h _ (by omega), show last - (k + 1) + 1 = last + 1 - (k + 1) by omega]

/-- the path expected a period later, without a further shock -/
theorem piecewise_later {la : LinAlg V} {gy gu : Arr V} {coef coef' : Nat → Regime V} {start : Nat}
    {init innov : Nat → V} {g : Nat → Nat → V} (h : ∀ i < start - 1, coef' i = coef (i + 1))
    (hg : piecewise la gy gu coef start init innov = .ok g) :
    piecewise la gy gu coef' (start - 1) (g 0) (fun _ => 0) = .ok fun k => g (k + 1) := by
  obtain ⟨hk, hr⟩ := piecewise_ok hg
  have hdef : rulesDefined la gy coef' (start - 1) = .ok () := by
    unfold rulesDefined
    by_cases hs : start - 1 = 0
    · rw [if_pos hs]
    · rw [if_neg hs, rules_shift (fun i hi => h i (by omega)) _ (Nat.le_refl _)]
      have := hr 1 (by omega)
      rw [show start - 1 - 1 + 1 = start - 1 by omega, this]
      rfl
  unfold piecewise
  rw [hdef]
  show Except.ok _ = Except.ok _
  congr 1
  funext k
  have hrule : ∀ i < start - 1, ruleOf la gy coef' (start - 1) i = ruleOf la gy coef start (i + 1) := by
    intro i hi
    unfold ruleOf
    rw [rules_shift (fun i hi => h i (by omega)) _ (by omega), show start - 1 - 1 + 1 = start - 1 by omega,
      show start - 1 - 1 - i = start - 1 - (i + 1) by omega]
  induction k with
  | zero =>
    rw [history, hk 1, hk 0]
    conv_rhs => rw [history]
    by_cases hs : 0 < start - 1
    · simp only [if_pos hs, if_pos (show 0 + 1 < start by omega), hrule 0 hs]
      funext i
      rw [mulVec_zero, add_zero]
    · simp only [if_neg hs, if_neg (show ¬ 0 + 1 < start by omega)]
      funext i
      rw [mulVec_zero, add_zero]
  | succ k ih =>
    rw [history, ih, hk (k + 1 + 1)]
    conv_rhs => rw [history]
    rw [← hk (k + 1)]
    by_cases hs : k + 1 < start - 1
    · simp only [if_pos hs, if_pos (show k + 1 + 1 < start by omega), hrule _ hs]
    · simp only [if_neg hs, if_neg (show ¬ k + 1 + 1 < start by omega)]

/-! ### where the last regime begins -/

/-- the beginning of the last regime is determined by the guess -/
theorem lastStart_unique {hypo : List Bool} {p s s' : Nat} (h1 : s < p)
    (h2 : 0 < s → hypo[s - 1]? = some true) (h3 : ∀ k, s ≤ k → k < p → hypo[k]? = some false) (h1' : s' < p)
    (h2' : 0 < s' → hypo[s' - 1]? = some true) (h3' : ∀ k, s' ≤ k → k < p → hypo[k]? = some false) : s = s' := by
  rcases Nat.lt_trichotomy s s' with h | h | h
  · have := h3 (s' - 1) (by omega) (by omega)
    rw [h2' (by omega)] at this
    simp at this
  · exact h
  · have := h3' (s - 1) (by omega) (by omega)
    rw [h2 (by omega)] at this
    simp at this

/-- one date later the regimes begin one period earlier -/
theorem locate_later {hypo : List Bool} {p : Nat} (hl : hypo.length = p + 1) (hp : 0 < p)
    (hend : hypo[p - 1]? = some false) (hend2 : hypo[p]? = some false) :
    ∃ s l s' l', locateRegimes hypo = .ok (s, l) ∧ locateRegimes (hypo.drop 1 ++ [false]) = .ok (s', l') ∧
      s'.getLast?.getD 0 = s.getLast?.getD 0 - 1 ∧ s.getLast?.getD 0 < p := by
  obtain ⟨s, l, h, h1, h2, h3⟩ := locateRegimes_last hl hp hend
  have get : ∀ k, k < p → (hypo.drop 1 ++ [false])[k]? = hypo[k + 1]? := by
    intro k hk
    rw [List.getElem?_append_left (by simp; omega), List.getElem?_drop, Nat.add_comm]
  have hend' : (hypo.drop 1 ++ [false])[p - 1]? = some false := by
    rw [get _ (by omega), show p - 1 + 1 = p by omega, hend2]
  obtain ⟨s', l', h', h1', h2', h3'⟩ := locateRegimes_last (hypo := hypo.drop 1 ++ [false]) (p := p)
    (by simp; omega) hp hend'
  refine ⟨s, l, s', l', h, h', ?_, h1⟩
  generalize s.getLast?.getD 0 = a at *
  generalize s'.getLast?.getD 0 = b at *
  refine lastStart_unique (hypo := hypo.drop 1 ++ [false]) (p := p) h1' h2' h3' (by omega) ?_ ?_
  · intro ha
    rw [get _ (by omega), show a - 1 - 1 + 1 = a - 1 by omega]
    exact h2 (by omega)
  · intro k hk hkp
    rw [get _ hkp]
    by_cases hk' : k + 1 < p
    · exact h3 _ (by omega) hk'
    · rw [show k + 1 = p by omega]; exact hend2

/-- the path expected a date later, for the guess without its first period -/
theorem hypothesized_later {la : LinAlg V} {gy gu : Arr V} {ref alt : Regime V} {init u : Nat → V} {hypo : List Bool}
    {p : Nat} (hl : hypo.length = p + 1) (hp : 0 < p) (hend : hypo[p - 1]? = some false)
    (hend2 : hypo[p]? = some false) {g : Nat → Nat → V} (h : hypothesized la gy gu ref alt init u hypo = .ok g) :
    hypothesized la gy gu ref alt (g 0) (fun _ => 0) (hypo.drop 1 ++ [false]) = .ok fun k => g (k + 1) := by
  obtain ⟨s, l, s', l', h1, h2, h3, h4⟩ := locate_later hl hp hend hend2
  unfold hypothesized at h ⊢
  rw [bind_ok_of_eq _ h1] at h
  rw [bind_ok_of_eq _ h2]
  simp only at h ⊢
  rw [h3]
  generalize s.getLast?.getD 0 = a at *
  refine piecewise_later ?_ h
  intro i hi
  unfold coefOne
  have get : (hypo.drop 1 ++ [false])[i]? = hypo[i + 1]? := by
    rw [List.getElem?_append_left (by simp; omega), List.getElem?_drop, Nat.add_comm]
  rw [get]
  by_cases hh : i = a - 1 - 1
  · have hh' : i + 1 = a - 1 := by omega
    rw [if_pos hh, if_pos hh']
  · have hh' : ¬ i + 1 = a - 1 := by omega
    rw [if_neg hh, if_neg hh']

/-! ### dates after one another -/

/-- what every guess keeps is kept by the search -/
theorem guessLoop_inv {H P : Type} {sim : H → Except Err P} {wrong : H → P → Bool} {update : H → P → H}
    (inv : H → Prop) (hinv : ∀ h g, inv h → inv (update h g)) :
    ∀ (n : Nat) (h : H) (g0 : Option P) {h' : H} {g : Option P} {c : Bool}, inv h →
      guessLoop sim wrong update n h g0 = .ok (h', g, c) → inv h'
  | 0, h, g0, h', g, c, hi, hl => by
    have := Except.ok.inj hl
    simp only [Prod.mk.injEq] at this
    exact this.1 ▸ hi
  | n + 1, h, g0, h', g, c, hi, hl => by
    rw [guessLoop] at hl
    obtain ⟨g1, hg1, hl⟩ := Except.bind_eq_ok hl
    split at hl
    · exact guessLoop_inv inv hinv n _ _ (hinv h g1 hi) hl
    · have := Except.ok.inj hl
      simp only [Prod.mk.injEq] at this
      exact this.1 ▸ hinv h g1 hi

section
variable {H : Type} {periods : Nat} {shift : H → H} {h0 : H} {init : Nat → V}
  {solve : (Nat → V) → (Nat → V) → H → Except Err (H × Option (Nat → Nat → V) × Bool)}

theorem shockLoop_last (s : Nat → V) (ss : List (Nat → V)) (idx : Nat) (h : H) (x : Nat → V)
    (g : Option (Nat → Nat → V)) :
    shockLoop periods solve shift (s :: ss) idx h x g = shockLoop periods solve shift (s :: ss) idx h x none := rfl

/-- the loop from a date on, after the dates before -/
theorem shockLoop_arrives {ss : List (Nat → V)} {h : H} {x : Nat → V} (ha : Arrives solve shift h0 init ss h x) :
    ∃ rows : List (Nat → V), rows.length = ss.length ∧ ∀ (s : Nat → V) (ts : List (Nat → V)) (idx : Nat) (g),
      idx + ss.length ≤ periods → shockLoop periods solve shift (ss ++ s :: ts) idx h0 init g =
        (shockLoop periods solve shift (s :: ts) (idx + ss.length) h x none).map fun r => (rows ++ r.1, r.2) := by
  induction ha with
  | start =>
    refine ⟨[], rfl, fun s ts idx g _ => ?_⟩
    rw [List.nil_append, shockLoop_last, List.length_nil, Nat.add_zero]
    cases shockLoop periods solve shift (s :: ts) idx h0 init none <;> rfl
  | @date ss s' h h' x g' c ha hs ih =>
    obtain ⟨rows, hr, ih⟩ := ih
    refine ⟨rows ++ [g' 0], by simp [hr], fun s ts idx g hidx => ?_⟩
    rw [List.length_append, List.length_singleton] at hidx
    rw [List.append_assoc, List.singleton_append, ih s' (s :: ts) idx g (by omega), shockLoop, bind_ok_of_eq _ hs]
    simp only
    rw [if_pos (by omega), shockLoop_last, List.length_append, List.length_singleton, ← Nat.add_assoc]
    cases shockLoop periods solve shift (s :: ts) (idx + ss.length + 1) (shift h') (g' 0) none with
    | error e => rfl
    | ok r => simp [Except.map, bind, Except.bind]

/-- dates without shocks at which the path expected goes on -/
theorem shockLoop_zeros : ∀ (q idx : Nat) (h : H) (g : Nat → Nat → V), idx + q ≤ periods →
    (∀ j < q, solve (g j) (fun _ => 0) (shift^[j + 1] h) =
      .ok (shift^[j + 1] h, some fun k => g (k + j + 1), false)) →
    shockLoop periods solve shift (List.replicate q fun _ => 0) idx (shift h) (g 0) (some g) =
      .ok ((List.range q).map (fun j => g (j + 1)), some fun k => g (k + q))
  | 0, _, _, _, _, _ => rfl
  | q + 1, idx, h, g, hidx, hs => by
    have h0 := hs 0 (by omega)
    rw [Function.iterate_one] at h0
    rw [List.replicate_succ, shockLoop, bind_ok_of_eq _ h0]
    simp only
    rw [if_pos (by omega)]
    have := shockLoop_zeros q (idx + 1) (shift h) (fun k => g (k + 1)) (by omega) (by
      intro j hj
      have := hs (j + 1) (by omega)
      rw [Function.iterate_succ_apply] at this
      rw [this]
      rfl)
    have e : (fun k => g (k + 0 + 1)) = fun k => g (k + 1) := rfl
    rw [e, bind_ok_of_eq _ this, List.range_succ_eq_map, List.map_cons, List.map_map]
    rfl

/-- the rows returned, with and without further dates at which nothing happens -/
theorem fillRest_zeros {ss : List (Nat → V)} {s : Nat → V} {h h' : H} {x : Nat → V} {g : Nat → Nat → V} {c : Bool}
    (ha : Arrives solve shift h0 init ss h x) (hs : solve x s h = .ok (h', some g, c)) :
    ∃ rows : List (Nat → V), rows.length = ss.length ∧ ∀ q : Nat, ss.length + 1 + q ≤ periods →
      (∀ j < q, solve (g j) (fun _ => 0) (shift^[j + 1] h') =
        .ok (shift^[j + 1] h', some fun k => g (k + j + 1), false)) →
      (shockLoop periods solve shift (ss ++ s :: List.replicate q fun _ => 0) 0 h0 init none >>= fun r =>
        fillRest periods (ss ++ s :: List.replicate q fun _ => 0).length r.1 r.2) =
      .ok (rows ++ (List.range (periods - ss.length)).map g) := by
  obtain ⟨rows, hr, hl⟩ := shockLoop_arrives (periods := periods) ha
  refine ⟨rows, hr, fun q hq hz => ?_⟩
  rw [hl s _ 0 none (by omega), shockLoop, bind_ok_of_eq _ hs]
  simp only
  rw [if_pos (by omega), shockLoop_zeros q _ h' g (by omega) hz]
  simp only [Except.map, bind, Except.bind, fillRest]
  have hlen : (ss ++ s :: List.replicate q fun _ => (0 : V)).length = ss.length + 1 + q := by
    simp; omega
  rw [hlen]
  obtain ⟨d, rfl⟩ : ∃ d, periods = ss.length + 1 + q + d := ⟨periods - (ss.length + 1 + q), by omega⟩
  have hrange : List.range (ss.length + 1 + q + d - ss.length) =
      0 :: ((List.range q).map (· + 1) ++ (List.range d).map (· + q + 1)) := by
    rw [show ss.length + 1 + q + d - ss.length = (q + d) + 1 by omega, List.range_succ_eq_map, List.range_add,
      List.map_append, List.map_map]
    congr 3
    funext k
    simp [Nat.succ_eq_add_one]; omega
  rw [hrange]
  by_cases hd : d = 0
  · subst hd
    rw [if_neg (by omega)]
    simp [Function.comp_def]
  · rw [if_pos (by omega), show ss.length + 1 + q + d - (ss.length + 1 + q) = d by omega]
    congr 1
    simp [Function.comp_def]
    intro a _
    congr 1
    omega

end

/-! ### guesses of later dates -/

theorem nextDate_length {p : Nat} {h : List Bool} (hl : h.length = p + 1) : (nextDate h).length = p + 1 := by
  unfold nextDate; simp; omega

theorem nextDate_one {p : Nat} {h : List Bool} (hl : h.length = p + 1) {k : Nat} (hk : k ≤ p) :
    (nextDate h)[k]? = if k + 1 ≤ p then h[k + 1]? else some false := by
  unfold nextDate
  by_cases hkp : k < p
  · rw [List.getElem?_append_left (by simp; omega), List.getElem?_drop, if_pos (by omega), Nat.add_comm]
  · rw [List.getElem?_append_right (by simp; omega), if_neg (by omega)]
    have : k - (List.drop 1 h).length = 0 := by simp; omega
    rw [this]; rfl

theorem nextDate_get {p : Nat} {h : List Bool} (hl : h.length = p + 1) : ∀ j,
    (nextDate^[j] h).length = p + 1 ∧
    ∀ k ≤ p, (nextDate^[j] h)[k]? = if k + j ≤ p then h[k + j]? else some false
  | 0 => ⟨hl, fun k hk => by rw [if_pos (by omega)]; rfl⟩
  | j + 1 => by
    obtain ⟨h1, h2⟩ := nextDate_get hl j
    rw [Function.iterate_succ_apply']
    refine ⟨nextDate_length h1, fun k hk => ?_⟩
    rw [nextDate_one h1 hk]
    by_cases hkp : k + 1 ≤ p
    · rw [if_pos hkp, h2 _ hkp, show k + 1 + j = k + (j + 1) by omega]
    · rw [if_neg hkp, if_neg (by omega)]

/-- the path expected goes on -/
theorem hypothesized_dates {la : LinAlg V} {gy gu : Arr V} {ref alt : Regime V} {init u : Nat → V} {h : List Bool}
    {p : Nat} (hl : h.length = p + 1) (hp : 0 < p) (hend : h[p - 1]? = some false) (hend2 : h[p]? = some false)
    {g : Nat → Nat → V} (hg : hypothesized la gy gu ref alt init u h = .ok g) : ∀ j,
    hypothesized la gy gu ref alt (g j) (fun _ => 0) (nextDate^[j + 1] h) = .ok fun k => g (k + j + 1)
  | 0 => hypothesized_later hl hp hend hend2 hg
  | j + 1 => by
    have ih := hypothesized_dates hl hp hend hend2 hg j
    obtain ⟨h1, h2⟩ := nextDate_get hl (j + 1)
    rw [Function.iterate_succ_apply']
    have e1 : (nextDate^[j + 1] h)[p - 1]? = some false := by
      rw [h2 _ (by omega)]
      split
      · rw [show p - 1 + (j + 1) = p by omega]; exact hend2
      · rfl
    have e2 : (nextDate^[j + 1] h)[p]? = some false := by
      rw [h2 _ (by omega), if_neg (by omega)]
    have := hypothesized_later h1 hp e1 e2 ih
    simp only [Nat.zero_add] at this
    unfold nextDate at this ⊢
    rw [this]
    congr 1
    funext k
    congr 1
    omega

/-! ### two searches side by side -/

/-- the second search ends like the first -/
def EndsLike {H H' P : Type} (R : H → H' → Prop) :
    Except Err (H × Option P × Bool) → Except Err (H' × Option P × Bool) → Prop
  | .error e, r' => r' = .error e
  | .ok r, r' => ∃ h1', r' = .ok (h1', r.2.1, r.2.2) ∧ R r.1 h1'

theorem guessLoop_sim {H H' P : Type} {sim : H → Except Err P} {wrong : H → P → Bool} {update : H → P → H}
    {sim' : H' → Except Err P} {wrong' : H' → P → Bool} {update' : H' → P → H'} {h0 : H} (R : H → H' → Prop)
    (hR : ∀ h h', Tried sim wrong update h0 h → R h h' → sim' h' = sim h ∧
      ∀ g, sim h = .ok g → wrong' h' g = wrong h g ∧ R (update h g) (update' h' g)) :
    ∀ (n : Nat) (h : H) (h' : H') (g0 : Option P), Tried sim wrong update h0 h → R h h' →
      EndsLike R (guessLoop sim wrong update n h g0) (guessLoop sim' wrong' update' n h' g0)
  | 0, h, h', g0, ht, hr => ⟨h', rfl, hr⟩
  | n + 1, h, h', g0, ht, hr => by
    obtain ⟨e1, e2⟩ := hR h h' ht hr
    rw [guessLoop, guessLoop, e1]
    cases hs : sim h with
    | error e => exact rfl
    | ok g =>
      obtain ⟨e3, e4⟩ := e2 g hs
      dsimp only [bind, Except.bind]
      rw [e3]
      cases hw : wrong h g with
      | false => exact ⟨_, rfl, e4⟩
      | true => exact guessLoop_sim R hR n _ _ _ (.next ht hs hw) e4

theorem shockLoop_sim {H H' : Type} {periods periods' : Nat} {shift : H → H} {shift' : H' → H'} {h0 : H}
    {init : Nat → V} {solve : (Nat → V) → (Nat → V) → H → Except Err (H × Option (Nat → Nat → V) × Bool)}
    {solve' : (Nat → V) → (Nat → V) → H' → Except Err (H' × Option (Nat → Nat → V) × Bool)} {shocks : List (Nat → V)}
    (R : H → H' → Prop) (hshift : ∀ h h', R h h' → R (shift h) (shift' h'))
    (hsolve : ∀ pre s post h h' x, shocks = pre ++ s :: post → Arrives solve shift h0 init pre h x → R h h' →
      EndsLike R (solve x s h) (solve' x s h')) :
    ∀ (ts pre : List (Nat → V)) (idx : Nat) (h : H) (h' : H') (x : Nat → V) (g0 : Option (Nat → Nat → V)),
      shocks = pre ++ ts → Arrives solve shift h0 init pre h x → R h h' → idx + ts.length ≤ periods →
      idx + ts.length ≤ periods' →
      shockLoop periods' solve' shift' ts idx h' x g0 = shockLoop periods solve shift ts idx h x g0
  | [], _, _, _, _, _, _, _, _, _, _, _ => rfl
  | s :: ts, pre, idx, h, h', x, g0, hp, ha, hr, h1, h2 => by
    have key := hsolve pre s ts h h' x hp ha hr
    rw [List.length_cons] at h1 h2
    rw [shockLoop, shockLoop]
    cases hs : solve x s h with
    | error e => rw [hs] at key; rw [show solve' x s h' = .error e from key]; rfl
    | ok r =>
      rw [hs] at key
      obtain ⟨h1', e, hr'⟩ := key
      rw [e]
      obtain ⟨hn, g, c⟩ := r
      dsimp only [bind, Except.bind]
      cases g with
      | none => rfl
      | some g =>
        dsimp only
        rw [if_pos (by omega), if_pos (by omega), shockLoop_sim (periods := periods) (periods' := periods') R hshift hsolve ts (pre ++ [s]) (idx + 1) (shift hn)
          (shift' h1') (g 0) (some g) (by simp [hp]) (.date ha hs) (hshift _ _ hr') (by omega) (by omega)]

theorem fillRest_longer {periods d n : Nat} {rs rows : List (Nat → V)} {last : Option (Nat → Nat → V)}
    (h : fillRest periods n rs last = .ok rows) (hn : n ≤ periods) (hp : 0 < periods)
    (hne : n ≠ 0 → ∃ g, last = some g) :
    ∃ more, more.length = d ∧ fillRest (periods + d) n rs last = .ok (rows ++ more) := by
  obtain ⟨g, rfl⟩ : ∃ g, last = some g := by
    by_cases h0 : n = 0
    · subst h0
      unfold fillRest at h
      rw [if_pos hp] at h
      cases last with
      | none => cases h
      | some g => exact ⟨g, rfl⟩
    · exact hne h0
  obtain ⟨m, rfl⟩ : ∃ m, periods = n + m := ⟨periods - n, by omega⟩
  have e1 : rows = rs ++ (List.range m).map fun k => g (k + 1) := by
    unfold fillRest at h
    by_cases hm : m = 0
    · subst hm
      rw [if_neg (by omega)] at h
      rw [← Except.ok.inj h]; simp
    · rw [if_pos (by omega), show n + m - n = m by omega] at h
      exact (Except.ok.inj h).symm
  refine ⟨(List.range d).map fun k => g (m + k + 1), by simp, ?_⟩
  unfold fillRest
  rw [e1]
  by_cases hm : m + d = 0
  · obtain ⟨rfl, rfl⟩ : m = 0 ∧ d = 0 := by omega
    rw [if_neg (by omega)]; simp
  · rw [if_pos (by omega), show n + m + d - n = m + d by omega, List.range_add]
    simp [Function.comp_def]

/-! ### joining guesses -/

theorem mismatch_append {h h' b b' r r' : List Bool} (hb : b.length = h.length) (hr : r.length = h.length) :
    mismatch (h ++ h') (b ++ b') (r ++ r') = (mismatch h b r || mismatch h' b' r') := by
  unfold mismatch
  rw [List.zip_append hb.symm, List.zip_append hr.symm, List.all_append, List.any_append]
  cases (List.zip h b).all fun p => !p.2 || p.1 <;> cases (List.zip h' b').all fun p => !p.2 || p.1 <;>
    cases (List.zip h r).any fun p => p.1 && p.2 <;> rfl

theorem updateHypo_append {h h' b b' r r' : List Bool} (hb : b.length = h.length) (hr : r.length = h.length) :
    updateHypo (h ++ h') (b ++ b') (r ++ r') = updateHypo h b r ++ updateHypo h' b' r' := by
  unfold updateHypo
  rw [List.zipWith_append (by omega), List.zipWith_append (by omega), List.zipWith_append (by simp; omega)]

theorem updateHypo_get {h b r : List Bool} {k : Nat} {x y z : Bool} (hx : h[k]? = some x) (hy : b[k]? = some y)
    (hz : r[k]? = some z) : (updateHypo h b r)[k]? = some ((x || y) && !(x && z)) := by
  unfold updateHypo
  simp [List.getElem?_zipWith, hx, hy, hz]

theorem updateHypo_quiet {d : Nat} {b r : List Bool} (hb : b.length = d) (hr : r.length = d)
    (hq : ∀ x ∈ b, x = false) : updateHypo (List.replicate d false) b r = List.replicate d false := by
  rw [updateHypo_same (by simpa using hb) (by simpa using hr)]
  exact mismatch_slack hq fun x hx => (List.mem_replicate.mp hx).2

theorem updateTwo_split {h : List (Bool × Bool)} {b0 b1 r0 r1 : List Bool} (hb0 : b0.length = h.length)
    (hb1 : b1.length = h.length) (hr0 : r0.length = h.length) (hr1 : r1.length = h.length) :
    updateTwo h (b0 ++ b1) (r0 ++ r1) =
      List.zip (updateHypo (h.map Prod.fst) b0 r0) (updateHypo (h.map Prod.snd) b1 r1) := by
  unfold updateTwo ravelF
  rw [updateHypo_append (by simpa using hb0) (by simpa using hr0)]
  unfold unravelF
  have hl := updateHypo_length (h := h.map Prod.fst) (b := b0) (r := r0) (by simpa using hb0) (by simpa using hr0)
  rw [List.length_map] at hl
  rw [List.take_append_of_le_length (by omega), List.take_of_length_le (by omega),
    List.drop_append_of_le_length (by omega), List.drop_of_length_le (by omega), List.nil_append]

theorem tests_more (p d : Nat) (t : (Nat → V) → Bool) (g : Nat → Nat → V) :
    tests (p + d) t g = tests p t g ++ (List.range d).map fun k => t (g (p + 1 + k)) := by
  unfold tests
  rw [show p + d + 1 = p + 1 + d by omega, List.range_add, List.map_append, List.map_map]
  rfl

theorem zip_get {l m : List Bool} {k : Nat} {x y : Bool} (hx : l[k]? = some x) (hy : m[k]? = some y) :
    (List.zip l m)[k]? = some (x, y) := by
  rw [List.getElem?_zip_eq_some]
  exact ⟨hx, hy⟩

theorem zip_const {l : List Bool} {n : Nat} (h : l.length = n) :
    List.zip l (List.replicate n false) = l.map fun x => (x, false) := by
  subst h
  induction l with
  | nil => rfl
  | cons a l ih => simp [List.replicate_succ, ih]

/-- a period that is in the reference regime and in which nothing binds stays in the reference regime -/
theorem updateHypo_calm {p k : Nat} {h : List (Bool × Bool)} {f : Bool × Bool → Bool} {b r : (Nat → V) → Bool}
    {g : Nat → Nat → V} (hk : k ≤ p) (hb : b (g k) = false) {x : Bool × Bool} (hf : f x = false := by rfl)
    (hm : h[k]? = some x) : (updateHypo (h.map f) (tests p b g) (tests p r g))[k]? = some false := by
  rw [updateHypo_get (x := f x) (by rw [List.getElem?_map, hm]; rfl) (tests_get hk) (tests_get hk), hb, hf]
  rfl

/-- the numbers of rows and shocks -/
theorem rows_sizes {H : Type} {periods : Nat} {shift : H → H}
    {solve : (Nat → V) → (Nat → V) → H → Except Err (H × Option (Nat → Nat → V) × Bool)} {shocks : List (Nat → V)}
    {h0 : H} {init : Nat → V} {rows : List (Nat → V)}
    (h : (shockLoop periods solve shift shocks 0 h0 init none >>= fun p => fillRest periods shocks.length p.1 p.2) =
      .ok rows) : rows.length = periods ∧ shocks.length ≤ periods := by
  obtain ⟨⟨rs, last⟩, hl, h⟩ := Except.bind_eq_ok h
  simp only at h
  obtain ⟨i1, i2, i3, -, -, -⟩ := shockLoop_rows _ _ _ _ _ hl
  have hle : shocks.length ≤ periods := by
    cases shocks with
    | nil => simp
    | cons a l => have := i3 (by simp); omega
  refine ⟨?_, hle⟩
  unfold fillRest at h
  split at h
  · split at h
    · cases h
    · cases h
      simp [i1]; omega
  · cases h
    omega

/-! ### the paths of guesses -/

/-- the path of a guess, with the beginning of the last regime -/
theorem hypothesized_start {hypo : List Bool} {p : Nat} (hl : hypo.length = p + 1) (hp : 0 < p)
    (hend : hypo[p - 1]? = some false) :
    ∃ a, a < p ∧ (0 < a → hypo[a - 1]? = some true) ∧ (∀ k, a ≤ k → k < p → hypo[k]? = some false) ∧
      ∀ (la : LinAlg V) (gy gu : Arr V) (ref alt : Regime V) (init u : Nat → V),
        hypothesized la gy gu ref alt init u hypo = piecewise la gy gu (coefOne ref alt hypo (a - 1)) a init u := by
  obtain ⟨s, l, h, h1, h2, h3⟩ := locateRegimes_last hl hp hend
  refine ⟨_, h1, h2, h3, fun la gy gu ref alt init u => ?_⟩
  unfold hypothesized
  rw [bind_ok_of_eq _ h]

/-- the path of a guess for two constraints -/
theorem hypothesizedTwo_start {hypo : List (Bool × Bool)} {p : Nat} (hl : hypo.length = p + 1) (hp : 0 < p)
    (hend : hypo[p - 1]? = some (false, false)) :
    ∃ a, a < p ∧ (0 < a → ∃ x y, hypo[a - 1]? = some (x, y) ∧ (x = true ∨ y = true)) ∧
      (∀ k, a ≤ k → k < p → hypo[k]? = some (false, false)) ∧
      ∀ (la : LinAlg V) (gy gu : Arr V) (ref alt0 alt1 dbl : Regime V) (init u : Nat → V),
        hypothesizedTwo la gy gu ref alt0 alt1 dbl init u hypo =
          piecewise la gy gu (coefTwo ref alt0 alt1 dbl hypo (a - 1)) a init u := by
  obtain ⟨s, l, h, h1, h2, h3⟩ := locateRegimes_last (hypo := hypo.map Prod.fst) (p := p) (by simpa using hl) hp
    (by rw [List.getElem?_map, hend]; rfl)
  obtain ⟨s', l', h', h1', h2', h3'⟩ := locateRegimes_last (hypo := hypo.map Prod.snd) (p := p) (by simpa using hl) hp
    (by rw [List.getElem?_map, hend]; rfl)
  refine ⟨max (s.getLast?.getD 0) (s'.getLast?.getD 0), by omega, ?_, ?_, fun la gy gu ref alt0 alt1 dbl init u => ?_⟩
  · intro hpos
    rcases Nat.le_total (s'.getLast?.getD 0) (s.getLast?.getD 0) with hle | hle
    · rw [max_eq_left hle] at hpos ⊢
      have := h2 hpos
      rw [List.getElem?_map, Option.map_eq_some_iff] at this
      obtain ⟨⟨x, y⟩, e1, e2⟩ := this
      exact ⟨x, y, e1, .inl e2⟩
    · rw [max_eq_right hle] at hpos ⊢
      have := h2' hpos
      rw [List.getElem?_map, Option.map_eq_some_iff] at this
      obtain ⟨⟨x, y⟩, e1, e2⟩ := this
      exact ⟨x, y, e1, .inr e2⟩
  · intro k hk hkp
    have e1 := h3 k (by omega) hkp
    have e2 := h3' k (by omega) hkp
    rw [List.getElem?_map, Option.map_eq_some_iff] at e1 e2
    obtain ⟨⟨x, y⟩, e1, e3⟩ := e1
    obtain ⟨⟨x', y'⟩, e2, e4⟩ := e2
    rw [e1] at e2
    cases e2
    simp only at e3 e4
    rw [e1, e3, e4]
  · unfold hypothesizedTwo
    rw [bind_ok_of_eq _ h]
    simp only
    rw [bind_ok_of_eq _ h']

/-- the beginning of the last regime is determined by the guess -/
theorem lastStart_uniqueTwo {hypo : List (Bool × Bool)} {p s s' : Nat} (h1 : s < p)
    (h2 : 0 < s → ∃ x y, hypo[s - 1]? = some (x, y) ∧ (x = true ∨ y = true))
    (h3 : ∀ k, s ≤ k → k < p → hypo[k]? = some (false, false)) (h1' : s' < p)
    (h2' : 0 < s' → ∃ x y, hypo[s' - 1]? = some (x, y) ∧ (x = true ∨ y = true))
    (h3' : ∀ k, s' ≤ k → k < p → hypo[k]? = some (false, false)) : s = s' := by
  rcases Nat.lt_trichotomy s s' with h | h | h
  · have := h3 (s' - 1) (by omega) (by omega)
    obtain ⟨x, y, e, e'⟩ := h2' (by omega)
    rw [e] at this
    simp at this
    rw [this.1, this.2] at e'
    simp at e'
  · exact h
  · have := h3' (s - 1) (by omega) (by omega)
    obtain ⟨x, y, e, e'⟩ := h2 (by omega)
    rw [e] at this
    simp at this
    rw [this.1, this.2] at e'
    simp at e'

theorem nextDates_length {p : Nat} {h : List (Bool × Bool)} (hl : h.length = p + 1) :
    (nextDates h).length = p + 1 := by
  unfold nextDates; simp; omega

theorem nextDates_one {p : Nat} {h : List (Bool × Bool)} (hl : h.length = p + 1) {k : Nat} (hk : k ≤ p) :
    (nextDates h)[k]? = if k + 1 ≤ p then h[k + 1]? else some (false, false) := by
  unfold nextDates
  by_cases hkp : k < p
  · rw [List.getElem?_append_left (by simp; omega), List.getElem?_drop, if_pos (by omega), Nat.add_comm]
  · rw [List.getElem?_append_right (by simp; omega), if_neg (by omega)]
    have : k - (List.drop 1 h).length = 0 := by simp; omega
    rw [this]; rfl

theorem nextDates_get {p : Nat} {h : List (Bool × Bool)} (hl : h.length = p + 1) : ∀ j,
    (nextDates^[j] h).length = p + 1 ∧
    ∀ k ≤ p, (nextDates^[j] h)[k]? = if k + j ≤ p then h[k + j]? else some (false, false)
  | 0 => ⟨hl, fun k hk => by rw [if_pos (by omega)]; rfl⟩
  | j + 1 => by
    obtain ⟨h1, h2⟩ := nextDates_get hl j
    rw [Function.iterate_succ_apply']
    refine ⟨nextDates_length h1, fun k hk => ?_⟩
    rw [nextDates_one h1 hk]
    by_cases hkp : k + 1 ≤ p
    · rw [if_pos hkp, h2 _ hkp, show k + 1 + j = k + (j + 1) by omega]
    · rw [if_neg hkp, if_neg (by omega)]

theorem hypothesizedTwo_later {la : LinAlg V} {gy gu : Arr V} {ref alt0 alt1 dbl : Regime V} {init u : Nat → V}
    {hypo : List (Bool × Bool)} {p : Nat} (hl : hypo.length = p + 1) (hp : 0 < p)
    (hend : hypo[p - 1]? = some (false, false)) (hend2 : hypo[p]? = some (false, false)) {g : Nat → Nat → V}
    (h : hypothesizedTwo la gy gu ref alt0 alt1 dbl init u hypo = .ok g) :
    hypothesizedTwo la gy gu ref alt0 alt1 dbl (g 0) (fun _ => 0) (nextDates hypo) = .ok fun k => g (k + 1) := by
  obtain ⟨a, a1, a2, a3, a4⟩ := hypothesizedTwo_start (V := V) hl hp hend
  obtain ⟨b, b1, b2, b3, b4⟩ := hypothesizedTwo_start (V := V) (nextDates_length hl) hp (by
    rw [nextDates_one hl (by omega), if_pos (by omega), show p - 1 + 1 = p by omega]; exact hend2)
  have hb : b = a - 1 := by
    refine lastStart_uniqueTwo b1 b2 b3 (by omega) ?_ ?_
    · intro ha
      rw [nextDates_one hl (by omega), if_pos (by omega), show a - 1 - 1 + 1 = a - 1 by omega]
      exact a2 (by omega)
    · intro k hk hkp
      rw [nextDates_one hl (by omega), if_pos (by omega)]
      by_cases hk' : k + 1 < p
      · exact a3 _ (by omega) hk'
      · rw [show k + 1 = p by omega]; exact hend2
  rw [a4] at h
  rw [b4, hb]
  refine piecewise_later ?_ h
  intro i hi
  unfold coefTwo
  rw [nextDates_one hl (by omega), if_pos (by omega)]
  by_cases hh : i = a - 1 - 1
  · have hh' : i + 1 = a - 1 := by omega
    simp only [if_pos hh, if_pos hh']
  · have hh' : ¬ i + 1 = a - 1 := by omega
    simp only [if_neg hh, if_neg hh']

theorem hypothesizedTwo_dates {la : LinAlg V} {gy gu : Arr V} {ref alt0 alt1 dbl : Regime V} {init u : Nat → V}
    {h : List (Bool × Bool)} {p : Nat} (hl : h.length = p + 1) (hp : 0 < p) (hend : h[p - 1]? = some (false, false))
    (hend2 : h[p]? = some (false, false)) {g : Nat → Nat → V}
    (hg : hypothesizedTwo la gy gu ref alt0 alt1 dbl init u h = .ok g) : ∀ j,
    hypothesizedTwo la gy gu ref alt0 alt1 dbl (g j) (fun _ => 0) (nextDates^[j + 1] h) = .ok fun k => g (k + j + 1)
  | 0 => hypothesizedTwo_later hl hp hend hend2 hg
  | j + 1 => by
    have ih := hypothesizedTwo_dates hl hp hend hend2 hg j
    obtain ⟨h1, h2⟩ := nextDates_get hl (j + 1)
    rw [Function.iterate_succ_apply']
    have e1 : (nextDates^[j + 1] h)[p - 1]? = some (false, false) := by
      rw [h2 _ (by omega)]
      split
      · rw [show p - 1 + (j + 1) = p by omega]; exact hend2
      · rfl
    have e2 : (nextDates^[j + 1] h)[p]? = some (false, false) := by
      rw [h2 _ (by omega), if_neg (by omega)]
    have := hypothesizedTwo_later h1 hp e1 e2 ih
    simp only [Nat.zero_add] at this
    rw [this]
    congr 1
    funext k
    congr 1
    omega

/-- a longer guess with the reference regime at its end has the same path -/
theorem hypothesized_longer {la : LinAlg V} {gy gu : Arr V} {ref alt : Regime V} {init u : Nat → V}
    {hypo : List Bool} {p d : Nat} (hl : hypo.length = p + 1) (hp : 0 < p) (hend : hypo[p - 1]? = some false)
    (hend2 : hypo[p]? = some false) :
    hypothesized la gy gu ref alt init u (hypo ++ List.replicate d false) =
      hypothesized la gy gu ref alt init u hypo := by
  have get : ∀ k, k ≤ p + d → (hypo ++ List.replicate d false)[k]? = if k ≤ p then hypo[k]? else some false := by
    intro k hk
    by_cases hkp : k ≤ p
    · rw [List.getElem?_append_left (by omega), if_pos hkp]
    · rw [List.getElem?_append_right (by omega), if_neg hkp, List.getElem?_replicate, if_pos (by omega)]
  obtain ⟨a, a1, a2, a3, a4⟩ := hypothesized_start (V := V) hl hp hend
  obtain ⟨b, b1, b2, b3, b4⟩ := hypothesized_start (V := V) (hypo := hypo ++ List.replicate d false) (p := p + d)
    (by simp; omega) (by omega) (by
      rw [get _ (by omega)]
      split
      · by_cases hd : p + d - 1 = p
        · rw [hd]; exact hend2
        · rw [show p + d - 1 = p - 1 by omega]; exact hend
      · rfl)
  have hb : b = a := by
    refine lastStart_unique b1 b2 b3 (by omega) ?_ ?_
    · intro ha
      rw [get _ (by omega), if_pos (by omega)]
      exact a2 ha
    · intro k hk hkp
      rw [get _ (by omega)]
      split
      · by_cases hk' : k < p
        · exact a3 _ hk hk'
        · rw [show k = p by omega]; exact hend2
      · rfl
  rw [a4, b4, hb]
  refine piecewise_congr ?_ _ _
  intro i hi
  unfold coefOne
  have hi' : i ≤ p := by omega
  rw [get _ (by omega), if_pos hi']

/-- the same for two constraints -/
theorem hypothesizedTwo_longer {la : LinAlg V} {gy gu : Arr V} {ref alt0 alt1 dbl : Regime V} {init u : Nat → V}
    {hypo : List (Bool × Bool)} {p d : Nat} (hl : hypo.length = p + 1) (hp : 0 < p)
    (hend : hypo[p - 1]? = some (false, false)) (hend2 : hypo[p]? = some (false, false)) :
    hypothesizedTwo la gy gu ref alt0 alt1 dbl init u (hypo ++ List.replicate d (false, false)) =
      hypothesizedTwo la gy gu ref alt0 alt1 dbl init u hypo := by
  have get : ∀ k, k ≤ p + d → (hypo ++ List.replicate d (false, false))[k]? =
      if k ≤ p then hypo[k]? else some (false, false) := by
    intro k hk
    by_cases hkp : k ≤ p
    · rw [List.getElem?_append_left (by omega), if_pos hkp]
    · rw [List.getElem?_append_right (by omega), if_neg hkp, List.getElem?_replicate, if_pos (by omega)]
  obtain ⟨a, a1, a2, a3, a4⟩ := hypothesizedTwo_start (V := V) hl hp hend
  obtain ⟨b, b1, b2, b3, b4⟩ := hypothesizedTwo_start (V := V) (hypo := hypo ++ List.replicate d (false, false))
    (p := p + d) (by simp; omega) (by omega) (by
      rw [get _ (by omega)]
      split
      · by_cases hd : p + d - 1 = p
        · rw [hd]; exact hend2
        · rw [show p + d - 1 = p - 1 by omega]; exact hend
      · rfl)
  have hb : b = a := by
    refine lastStart_uniqueTwo b1 b2 b3 (by omega) ?_ ?_
    · intro ha
      rw [get _ (by omega), if_pos (by omega)]
      exact a2 ha
    · intro k hk hkp
      rw [get _ (by omega)]
      split
      · by_cases hk' : k < p
        · exact a3 _ hk hk'
        · rw [show k = p by omega]; exact hend2
      · rfl
  rw [a4, b4, hb]
  refine piecewise_congr ?_ _ _
  intro i hi
  unfold coefTwo
  rw [get _ (by omega), if_pos (by omega)]

/-- a second constraint that never binds -/
theorem hypothesizedTwo_slack {la : LinAlg V} {gy gu : Arr V} {ref alt0 alt1 dbl : Regime V} {init u : Nat → V}
    {hypo : List Bool} {p : Nat} (hl : hypo.length = p + 1) (hp : 0 < p) (hend : hypo[p - 1]? = some false) :
    hypothesizedTwo la gy gu ref alt0 alt1 dbl init u (hypo.map fun x => (x, false)) =
      hypothesized la gy gu ref alt0 init u hypo := by
  obtain ⟨a, a1, a2, a3, a4⟩ := hypothesized_start (V := V) hl hp hend
  obtain ⟨b, b1, b2, b3, b4⟩ := hypothesizedTwo_start (V := V) (hypo := hypo.map fun x => (x, false)) (p := p)
    (by simpa using hl) hp (by rw [List.getElem?_map, hend]; rfl)
  have hb : b = a := by
    refine lastStart_uniqueTwo b1 b2 b3 a1 ?_ ?_
    · intro ha
      refine ⟨true, false, ?_, .inl rfl⟩
      rw [List.getElem?_map, a2 ha]; rfl
    · intro k hk hkp
      rw [List.getElem?_map, a3 k hk hkp]; rfl
  rw [a4, b4, hb]
  refine piecewise_congr ?_ _ _
  intro i hi
  unfold coefTwo coefOne
  obtain ⟨x, hx⟩ : ∃ x, hypo[i]? = some x := ⟨_, List.getElem?_eq_getElem (by omega)⟩
  rw [List.getElem?_map, hx]
  simp only [Option.map_some, Option.getD_some]
  by_cases hla : i = a - 1
  · have := a2 (by omega)
    rw [← hla, hx] at this
    cases this
    simp [hla]
  · cases x <;> simp [hla]

/-- the two constraints in the other order -/
theorem hypothesizedTwo_swap {la : LinAlg V} {gy gu : Arr V} {ref alt0 alt1 dbl : Regime V} {init u : Nat → V}
    {hypo : List (Bool × Bool)} {p : Nat} (hl : hypo.length = p + 1) (hp : 0 < p)
    (hend : hypo[p - 1]? = some (false, false)) :
    hypothesizedTwo la gy gu ref alt1 alt0 dbl init u (hypo.map Prod.swap) =
      hypothesizedTwo la gy gu ref alt0 alt1 dbl init u hypo := by
  obtain ⟨a, a1, a2, a3, a4⟩ := hypothesizedTwo_start (V := V) hl hp hend
  obtain ⟨b, b1, b2, b3, b4⟩ := hypothesizedTwo_start (V := V) (hypo := hypo.map Prod.swap) (p := p)
    (by simpa using hl) hp (by rw [List.getElem?_map, hend]; rfl)
  have hb : b = a := by
    refine lastStart_uniqueTwo b1 b2 b3 a1 ?_ ?_
    · intro ha
      obtain ⟨x, y, e, e'⟩ := a2 ha
      exact ⟨y, x, by rw [List.getElem?_map, e]; rfl, e'.symm⟩
    · intro k hk hkp
      rw [List.getElem?_map, a3 k hk hkp]; rfl
  rw [a4, b4, hb]
  refine piecewise_congr ?_ _ _
  intro i hi
  unfold coefTwo
  obtain ⟨⟨x, y⟩, hx⟩ : ∃ x, hypo[i]? = some x := ⟨_, List.getElem?_eq_getElem (by omega)⟩
  rw [List.getElem?_map, hx]
  simp only [Option.map_some, Option.getD_some, Prod.swap]
  by_cases hla : i = a - 1
  · obtain ⟨x', y', e, e'⟩ := a2 (by omega)
    rw [← hla, hx] at e
    cases e
    cases x <;> cases y <;> simp_all
  · cases x <;> cases y <;> simp [hla]

end Pynare
