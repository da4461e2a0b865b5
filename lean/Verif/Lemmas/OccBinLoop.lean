import Verif.Lemmas.OccBin
/-!
# Lemmas for the loops of the solver for occasionally binding constraints
-/

namespace Pynare

variable {V : Type}

/-! ### two constraints -/

theorem zip_zipWith {f g : Bool → Bool → Bool} : ∀ (a b c d : List Bool),
    List.zipWith (fun c x => (f c.1 x.1, g c.2 x.2)) (List.zip a b) (List.zip c d) =
      List.zip (List.zipWith f a c) (List.zipWith g b d)
  | [], _, _, _ => by simp
  | _ :: _, [], _, _ => by simp
  | _ :: _, _ :: _, [], _ => by simp
  | _ :: _, _ :: _, _ :: _, [] => by simp
  | a :: as, b :: bs, c :: cs, d :: ds => by simp [zip_zipWith as bs cs ds]

theorem ravelF_take (h : List (Bool × Bool)) : (ravelF h).take h.length = h.map Prod.fst := by
  unfold ravelF
  rw [List.take_append_of_le_length (by simp), List.take_of_length_le (by simp)]

theorem ravelF_drop (h : List (Bool × Bool)) : (ravelF h).drop h.length = h.map Prod.snd := by
  unfold ravelF
  rw [List.drop_append_of_le_length (by simp), List.drop_of_length_le (by simp), List.nil_append]

theorem unravelF_ravelF (h : List (Bool × Bool)) : unravelF h.length (ravelF h) = h := by
  unfold unravelF
  rw [ravelF_take, ravelF_drop]
  induction h with
  | nil => rfl
  | cons p ps ih => simp only [List.map_cons, List.zip_cons_cons, ih]

theorem updateRestrained_eq (h : List (Bool × Bool)) (b r : List Bool) :
    updateRestrained h b r = updateTwo h b r := by
  unfold updateRestrained updateTwo updateHypo unravelF
  simp only [List.take_zipWith, List.drop_zipWith, ravelF_take, ravelF_drop]
  exact zip_zipWith (f := fun c x => c && !x) (g := fun c x => c && !x) _ _ _ _

theorem ravelF_length (h : List (Bool × Bool)) : (ravelF h).length = 2 * h.length := by
  simp [ravelF]; omega

theorem ravelF_get_fst {h : List (Bool × Bool)} {k : Nat} (hk : k < h.length) :
    (ravelF h)[k]? = (h[k]?).map Prod.fst := by
  unfold ravelF
  rw [List.getElem?_append_left (by simpa using hk), List.getElem?_map]

theorem ravelF_get_snd (h : List (Bool × Bool)) (k : Nat) :
    (ravelF h)[h.length + k]? = (h[k]?).map Prod.snd := by
  unfold ravelF
  rw [List.getElem?_append_right (by simp), List.getElem?_map, List.length_map]
  simp

theorem updateTwo_length {h : List (Bool × Bool)} {b r : List Bool} (hb : b.length = 2 * h.length)
    (hr : r.length = 2 * h.length) : (updateTwo h b r).length = h.length := by
  unfold updateTwo unravelF
  have := updateHypo_length (h := ravelF h) (b := b) (r := r) (by rw [ravelF_length]; exact hb)
    (by rw [ravelF_length]; exact hr)
  rw [ravelF_length] at this
  simp [this]; omega

theorem updateTwo_same {h : List (Bool × Bool)} {b r : List Bool} (hb : b.length = 2 * h.length)
    (hr : r.length = 2 * h.length) (hm : mismatch (ravelF h) b r = false) : updateTwo h b r = h := by
  unfold updateTwo
  rw [updateHypo_same (by rw [ravelF_length]; exact hb) (by rw [ravelF_length]; exact hr) hm, unravelF_ravelF]

/-! ### all shocks -/

theorem mismatch_slack {h b r : List Bool} (hb : ∀ x ∈ b, x = false) (hh : ∀ x ∈ h, x = false) :
    mismatch h b r = false := by
  unfold mismatch
  rw [Bool.or_eq_false_iff, Bool.not_eq_false', List.all_eq_true, List.any_eq_false]
  constructor
  · intro p hp
    have := hb _ (List.of_mem_zip hp).2
    simp [this]
  · intro p hp
    have := hh _ (List.of_mem_zip hp).1
    simp [this]

theorem locateFrom_replicate : ∀ (k i : Nat), locateFrom false i (List.replicate k false) = ([], [])
  | 0, _ => rfl
  | k + 1, i => by
    rw [List.replicate_succ, locateFrom_cons, locateFrom_replicate k (i + 1)]; rfl

theorem locateRegimes_replicate (p : Nat) : locateRegimes (List.replicate (p + 1) false) = .ok ([0], [false]) := by
  rw [List.replicate_succ, locateRegimes, List.dropLast_replicate, locateFrom_replicate]

section
variable [CommRing V]

theorem linearAt_cons (n m : Nat) (gy gu : Arr V) (init s : Nat → V) (ss : List (Nat → V)) : ∀ t,
    linearAt n m gy gu init (s :: ss) (t + 1) =
      linearAt n m gy gu (linearAt n m gy gu init (s :: ss) 0) ss t
  | 0 => by rw [linearAt, linearAt, linearAt]; rfl
  | t + 1 => by
    have ih := linearAt_cons n m gy gu init s ss t
    rw [show linearAt n m gy gu init (s :: ss) (t + 1 + 1) = fun i =>
      (sumTo n fun j => gy.e i j * linearAt n m gy gu init (s :: ss) (t + 1) j) +
      sumTo m fun k => gu.e i k * ((s :: ss)[t + 2]?.getD fun _ => 0) k from rfl, ih]
    rfl

theorem linearBefore_cons (n m : Nat) (gy gu : Arr V) (init s : Nat → V) (ss : List (Nat → V)) (t : Nat) :
    linearBefore n m gy gu init (s :: ss) (t + 1) =
      linearBefore n m gy gu (linearAt n m gy gu init (s :: ss) 0) ss t := by
  cases t with
  | zero => rfl
  | succ t => exact linearAt_cons n m gy gu init s ss t

theorem linearAt_eq (n m : Nat) (gy gu : Arr V) (init : Nat → V) (shocks : List (Nat → V)) (t : Nat) :
    linearAt n m gy gu init shocks t = fun i =>
      (sumTo n fun j => gy.e i j * linearBefore n m gy gu init shocks t j) +
      sumTo m fun k => gu.e i k * (shocks[t]?.getD fun _ => 0) k := by
  cases t <;> rfl

/-- the loop over the shocks when every date is solved by the linear path -/
theorem shockLoop_linear {H : Type} {periods n m : Nat} {gy gu : Arr V} {shift : H → H} {h0 : H}
    {solve : (Nat → V) → (Nat → V) → H → Except Err (H × Option (Nat → Nat → V) × Bool)}
    (hshift : shift h0 = h0) : ∀ (shocks : List (Nat → V)) (idx : Nat) (init : Nat → V)
      (g0 : Option (Nat → Nat → V)), idx + shocks.length ≤ periods →
      (∀ t s, shocks[t]? = some s → solve (linearBefore n m gy gu init shocks t) s h0 =
        .ok (h0, some (linearPath n m gy gu (linearBefore n m gy gu init shocks t) s), false)) →
      shockLoop periods solve shift shocks idx h0 init g0 =
        .ok ((List.range shocks.length).map (linearAt n m gy gu init shocks),
          if shocks = [] then g0 else
            some (linearPath n m gy gu (linearBefore n m gy gu init shocks (shocks.length - 1))
              (shocks[shocks.length - 1]?.getD fun _ => 0)))
  | [], _, _, _, _, _ => rfl
  | s :: ss, idx, init, g0, hlen, hsol => by
    have h0 := hsol 0 s rfl
    have first : linearPath n m gy gu init s 0 = linearAt n m gy gu init (s :: ss) 0 := by
      rw [linearPath, linearAt]; rfl
    rw [shockLoop, show linearBefore n m gy gu init (s :: ss) 0 = init from rfl] at *
    rw [bind_ok_of_eq _ h0]
    simp only
    rw [if_pos (by simp at hlen; omega)]
    have ih := shockLoop_linear (periods := periods) (solve := solve) (gy := gy) (gu := gu) (n := n) (m := m) hshift ss (idx + 1)
      (linearPath n m gy gu init s 0) (some (linearPath n m gy gu init s)) (by simp at hlen; omega) (by
        intro t s' ht
        have := hsol (t + 1) s' (by simpa using ht)
        rw [linearBefore_cons, ← first] at this
        exact this)
    rw [hshift, bind_ok_of_eq _ ih]
    simp only
    congr 1
    refine Prod.ext ?_ ?_
    · simp only [List.length_cons]
      rw [List.range_succ_eq_map, List.map_cons, List.map_map, first]
      congr 1
      exact List.map_congr_left fun t _ => (linearAt_cons n m gy gu init s ss t).symm
    · simp only [reduceCtorEq, if_false]
      by_cases hss : ss = []
      · subst hss
        rfl
      · rw [if_neg hss]
        have hpos : 0 < ss.length := List.length_pos_iff.mpr hss
        have e : (s :: ss).length - 1 = ss.length - 1 + 1 := by simp; omega
        rw [e, linearBefore_cons, first, List.getElem?_cons_succ]

/-- rows after the last shock -/
theorem linearPath_tail (n m : Nat) (gy gu : Arr V) (init : Nat → V) (shocks : List (Nat → V))
    (hpos : 0 < shocks.length) : ∀ k,
    linearPath n m gy gu (linearBefore n m gy gu init shocks (shocks.length - 1))
      (shocks[shocks.length - 1]?.getD fun _ => 0) k = linearAt n m gy gu init shocks (shocks.length - 1 + k)
  | 0 => by rw [Nat.add_zero, linearAt_eq]; rfl
  | k + 1 => by
    rw [linearPath, linearPath_tail n m gy gu init shocks hpos k, ← Nat.add_assoc,
      linearAt_eq n m gy gu init shocks (shocks.length - 1 + k + 1)]
    funext i
    have : (sumTo m fun l => gu.e i l * (shocks[shocks.length - 1 + k + 1]?.getD fun _ => 0) l) = 0 := by
      rw [List.getElem?_eq_none (by omega)]
      simp [sumTo_eq]
    rw [this, add_zero]
    rfl

theorem fillRest_linear {periods n m : Nat} {gy gu : Arr V} {init : Nat → V} {shocks : List (Nat → V)}
    (hpos : 0 < shocks.length) (hlen : shocks.length ≤ periods) :
    fillRest periods shocks.length ((List.range shocks.length).map (linearAt n m gy gu init shocks))
      (some (linearPath n m gy gu (linearBefore n m gy gu init shocks (shocks.length - 1))
        (shocks[shocks.length - 1]?.getD fun _ => 0))) =
      .ok ((List.range periods).map (linearAt n m gy gu init shocks)) := by
  unfold fillRest
  by_cases h : shocks.length < periods
  · rw [if_pos h]
    simp only
    congr 1
    have e : periods = shocks.length + (periods - shocks.length) := by omega
    rw [show List.range periods = List.range (shocks.length + (periods - shocks.length)) by rw [← e],
      List.range_add, List.map_append, List.map_map]
    congr 1
    refine List.map_congr_left fun k _ => ?_
    rw [linearPath_tail n m gy gu init shocks hpos]
    simp only [Function.comp]
    congr 1
    omega
  · rw [if_neg h, show shocks.length = periods by omega]

end

/-- what the loop over the shocks does, date by date -/
theorem shockLoop_rows {H : Type} {periods : Nat} {shift : H → H}
    {solve : (Nat → V) → (Nat → V) → H → Except Err (H × Option (Nat → Nat → V) × Bool)} :
    ∀ (shocks : List (Nat → V)) (idx : Nat) (h0 : H) (init : Nat → V) (g0 : Option (Nat → Nat → V))
      {rows : List (Nat → V)} {last : Option (Nat → Nat → V)},
      shockLoop periods solve shift shocks idx h0 init g0 = .ok (rows, last) →
      rows.length = shocks.length ∧ (shocks = [] → last = g0) ∧ (shocks ≠ [] → idx + shocks.length ≤ periods) ∧
      ∃ (guess : Nat → H) (path : Nat → Nat → Nat → V), guess 0 = h0 ∧
        (shocks ≠ [] → last = some (path (shocks.length - 1))) ∧
        ∀ t s, shocks[t]? = some s → rows[t]? = some (path t 0) ∧
          ∃ h' c, solve (if t = 0 then init else path (t - 1) 0) s (guess t) = .ok (h', some (path t), c) ∧
            guess (t + 1) = shift h'
  | [], idx, h0, init, g0, rows, last, h => by
    have := Except.ok.inj h
    simp only [Prod.mk.injEq] at this
    obtain ⟨rfl, rfl⟩ := this
    exact ⟨rfl, fun _ => rfl, fun hc => absurd rfl hc, fun _ => h0, fun _ _ => init, rfl,
      fun hc => absurd rfl hc, fun t s hc => by simp at hc⟩
  | s :: ss, idx, h0, init, g0, rows, last, h => by
    rw [shockLoop] at h
    obtain ⟨⟨h', g, c⟩, hs, h⟩ := Except.bind_eq_ok h
    simp only at h
    cases g with
    | none => cases h
    | some g =>
      simp only at h
      by_cases hidx : idx < periods
      · rw [if_pos hidx] at h
        obtain ⟨⟨rows', last'⟩, hr, h⟩ := Except.bind_eq_ok h
        have := Except.ok.inj h
        simp only [Prod.mk.injEq] at this
        obtain ⟨rfl, rfl⟩ := this
        obtain ⟨i1, i2, i3, guess, path, j1, j2, j3⟩ := shockLoop_rows ss _ _ _ _ hr
        refine ⟨by simp [i1], by simp, ?_, fun t => match t with | 0 => h0 | t + 1 => guess t,
          fun t => match t with | 0 => g | t + 1 => path t, rfl, ?_, ?_⟩
        · intro _
          by_cases hss : ss = []
          · subst hss; simp; omega
          · have := i3 hss; simp; omega
        · intro _
          by_cases hss : ss = []
          · subst hss; rw [i2 rfl]; rfl
          · have hpos : 0 < ss.length := List.length_pos_iff.mpr hss
            rw [j2 hss, show (s :: ss).length - 1 = ss.length - 1 + 1 by simp; omega]
        · intro t s' ht
          cases t with
          | zero =>
            have : s = s' := by simpa using ht
            subst this
            refine ⟨rfl, h', c, ?_, j1⟩
            rw [if_pos rfl]
            exact hs
          | succ t =>
            obtain ⟨k1, h2, c2, k2, k3⟩ := j3 t s' (by simpa using ht)
            refine ⟨by simpa using k1, h2, c2, ?_, k3⟩
            rw [if_neg (by omega), show t + 1 - 1 = t by omega]
            cases t with
            | zero => simpa using k2
            | succ t => simpa using k2
      · rw [if_neg hidx] at h; cases h

end Pynare
