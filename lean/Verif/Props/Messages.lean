import Verif.Model.Messages
import Verif.Spec.Messages
import Verif.Props.Calib
import Verif.Examples.Stats
import Verif.Lemmas.FirstOrder
/-!
# C189, C190: what messages say
-/

namespace Pynare

variable {V : Type}

/-- no parameter without precedence has only names with precedence in its definition -/
def Stuck (es : Dict (List String)) (prec : Dict Nat) : Prop :=
  ∀ k r, (k, r) ∈ es → precOf prec k = 0 → ∃ v ∈ r, precOf prec v = 0

theorem stepPrec_stuck {st st' : Dict Nat × Nat} {k : String} {r : List String}
    (hs : precOf st.1 k = 0 → ∃ v ∈ r, precOf st.1 v = 0) (h : stepPrec st k r = .ok st') : st' = st := by
  unfold stepPrec at h
  cases hg : st.1.get? k with
  | none => rw [hg] at h; cases h
  | some p =>
    rw [hg] at h
    simp only at h
    split at h
    · rename_i p0
      subst p0
      obtain ⟨v, hv, h0⟩ := hs (by simp [precOf, hg])
      obtain ⟨ns, hl, h⟩ := Except.bind_eq_ok h
      have hc : ∀ x ∈ r, x ∈ st.1.keys := by
        by_contra hc
        rw [lookupAll_error (by simpa using hc)] at hl
        cases hl
      rw [lookupAll_ok hc] at hl
      obtain rfl := Except.ok.inj hl
      rw [if_neg] at h
      · exact (Except.ok.inj h).symm
      · intro ha
        have := List.all_eq_true.mp ha _ (List.mem_map.mpr ⟨v, hv, rfl⟩)
        simp [h0] at this
    · exact (Except.ok.inj h).symm

theorem passPrec_stuck : ∀ {es : Dict (List String)} {st st' : Dict Nat × Nat}, Stuck es st.1 →
    passPrec st es = .ok st' → st' = st
  | [], _, _, _, h => (Except.ok.inj h).symm
  | (k, r) :: es, st, st', hs, h => by
    obtain ⟨st1, h1, h2⟩ := Except.bind_eq_ok h
    obtain rfl := stepPrec_stuck (hs k r (.head _)) h1
    exact passPrec_stuck (fun k' r' hm => hs k' r' (.tail _ hm)) h2

theorem loopPrec_stuck {rhs : Dict (List String)} : ∀ {n : Nat} {st st' : Dict Nat × Nat}, Stuck rhs st.1 →
    loopPrec rhs n st = .ok st' → st' = st
  | 0, _, _, _, h => (Except.ok.inj h).symm
  | n + 1, st, st', hs, h => by
    simp only [loopPrec] at h
    split at h
    · obtain ⟨st1, h1, h2⟩ := Except.bind_eq_ok h
      obtain rfl := passPrec_stuck hs h1
      exact loopPrec_stuck hs h2
    · exact (Except.ok.inj h).symm

/-- enough passes lead to a table that cannot be completed further -/
theorem loopPrec_fixed {rhs : Dict (List String)} (hn : rhs.keys.Nodup) :
    ∀ {n : Nat} {st st' : Dict Nat × Nat}, Inv rhs st → st.2 ≤ n → loopPrec rhs n st = .ok st' → Stuck rhs st'.1 := by
  have done : ∀ {st : Dict Nat × Nat}, Inv rhs st → st.2 = 0 → Stuck rhs st.1 := by
    intro st hi h0 k r hm hk
    have hz := (zeros_pos_iff (by rw [hi.keys]; exact hn)).mpr
      ⟨k, by rw [hi.keys]; exact List.mem_map.mpr ⟨_, hm, rfl⟩, hk⟩
    rw [← hi.count] at hz
    omega
  intro n
  induction n with
  | zero =>
    intro st st' hi hle h
    obtain rfl := Except.ok.inj h
    exact done hi (by omega)
  | succ n ih =>
    intro st st' hi hle h
    simp only [loopPrec] at h
    split at h
    · obtain ⟨st1, h1, h2⟩ := Except.bind_eq_ok h
      obtain ⟨b1, b2, b3, b4, b5⟩ := passPrec_spec hi (fun k r hm => Dict.get?_of_mem hn hm) h1
      by_cases hlt : st1.2 < st.2
      · exact ih b1 (by omega) h2
      · have hs : Stuck rhs st.1 := by
          intro k r hm hk
          by_contra hc
          exact hlt (b4 k r hm hk fun v hv => Nat.pos_of_ne_zero fun h0 => hc ⟨v, hv, h0⟩)
        obtain rfl := passPrec_stuck hs h1
        obtain rfl := loopPrec_stuck hs h2
        exact hs
    · obtain rfl := Except.ok.inj h
      exact done hi (by omega)

/-- in a table that cannot be completed further exactly the parameters that are determined have a precedence -/
theorem determined_iff {defs : Dict (Def V)} (hn : defs.keys.Nodup) {rhs : Dict (List String)} (hr : rhsVars defs = .ok rhs)
    {st : Dict Nat × Nat} (hi : Inv rhs st) (hs : Stuck rhs st.1) {k : String} (hk : k ∈ defs.keys) :
    Determined defs k ↔ 0 < precOf st.1 k := by
  have hnr : rhs.keys.Nodup := by rw [rhsVars_keys hr]; exact hn
  constructor
  · intro h
    induction h with
    | @of k d hm hv ih =>
      refine Nat.pos_of_ne_zero fun h0 => ?_
      obtain ⟨r, hg⟩ := Dict.exists_get?_of_mem (d := rhs) (k := k) (by rw [rhsVars_keys hr]; exact hk)
      obtain ⟨v, hvr, hv0⟩ := hs k r (Dict.mem_of_get? hg) h0
      obtain ⟨d', hm', hvd⟩ := (dep_iff hr k v).mp ⟨r, Dict.mem_of_get? hg, hvr⟩
      have hd : d' = d := Option.some.inj ((Dict.get?_of_mem hn hm').symm.trans (Dict.get?_of_mem hn hm))
      subst hd
      by_cases hvk : v ∈ defs.keys
      · have := ih v hvd hvk
        omega
      · cases hv v hvd with
        | of hm'' _ => exact hvk (List.mem_map.mpr ⟨_, hm'', rfl⟩)
  · suffices ∀ n k, k ∈ defs.keys → precOf st.1 k = n → 0 < n → Determined defs k from
      fun h => this _ k hk rfl h
    intro n
    induction n using Nat.strong_induction_on with
    | _ n ih =>
      intro k hk hp hpos
      obtain ⟨d, hd⟩ := Dict.exists_get?_of_mem hk
      refine .of (Dict.mem_of_get? hd) fun v hv => ?_
      obtain ⟨r, hm, hvr⟩ := (dep_iff hr k v).mpr ⟨d, Dict.mem_of_get? hd, hv⟩
      obtain ⟨o1, o2, o3⟩ := hi.order k r (Dict.get?_of_mem hnr hm) (by omega) v hvr
      exact ih _ (by omega) v (by rw [← rhsVars_keys hr]; exact o1) rfl o2

/-- **C189.**  If all names that are mentioned are defined, the ordering fails with a message exactly if some parameter is not
determined by the definitions, and the number in the message is the number of such parameters. -/
theorem C189_unsolved {defs : Dict (Def V)} (hn : defs.keys.Nodup) {rhs : Dict (List String)} (hr : rhsVars defs = .ok rhs)
    (hclosed : ∀ k v, Mentions defs k v → v ∈ defs.keys) :
    ∃ l : List String, l.Nodup ∧ (∀ k, k ∈ l ↔ k ∈ defs.keys ∧ ¬ Determined defs k) ∧
      orderText rhs = .ok (if l = [] then none else some ("could not solve parameter calibration: ".toList ++
        Nat.toDigits 10 l.length ++ (if 1 < l.length then " unsolved parameters".toList else " unsolved parameter".toList))) ∧
      (orderPrecedence rhs = .error .calibrationError ↔ l ≠ []) := by
  have hk := rhsVars_keys hr
  have hnr : rhs.keys.Nodup := by rw [hk]; exact hn
  have hc : Closed rhs := by
    intro k r hm v hv
    rw [hk]
    exact hclosed k v ((dep_iff hr k v).mp ⟨r, hm, hv⟩)
  have hi := inv_init rhs
  obtain ⟨st, hl⟩ := loopPrec_ok hnr hc
    (n := ((initPrec rhs).length - ((initPrec rhs).map Prod.snd).sum) *
      (((initPrec rhs).length - ((initPrec rhs).map Prod.snd).sum) + 1) / 2) hi
  have hi' := loopPrec_spec hnr hi hl
  have hs := loopPrec_fixed hnr hi (tri_ge _) hl
  have hns : st.1.keys.Nodup := by rw [hi'.keys]; exact hnr
  have hmem : ∀ k, k ∈ (st.1.filter fun p => p.2 == 0).map Prod.fst ↔ k ∈ defs.keys ∧ ¬ Determined defs k := by
    intro k
    constructor
    · intro h
      obtain ⟨⟨k', p⟩, hm, rfl⟩ := List.mem_map.mp h
      rw [List.mem_filter] at hm
      have hp : p = 0 := by simpa using hm.2
      have hkd : k' ∈ defs.keys := by rw [← hk, ← hi'.keys]; exact List.mem_map.mpr ⟨_, hm.1, rfl⟩
      refine ⟨hkd, fun hd => ?_⟩
      have := (determined_iff hn hr hi' hs hkd).mp hd
      simp [precOf, Dict.get?_of_mem hns hm.1, hp] at this
    · rintro ⟨hkd, hd⟩
      rw [determined_iff hn hr hi' hs hkd] at hd
      obtain ⟨p, hp⟩ := Dict.exists_get?_of_mem (d := st.1) (k := k) (by rw [hi'.keys, hk]; exact hkd)
      refine List.mem_map.mpr ⟨(k, p), List.mem_filter.mpr ⟨Dict.mem_of_get? hp, ?_⟩, rfl⟩
      simp [precOf, hp] at hd
      simp [hd]
  have hlen : ((st.1.filter fun p => p.2 == 0).map Prod.fst).length = st.2 := by
    rw [List.length_map, hi'.count]
    rfl
  have hany : (st.1.map Prod.snd).any (fun p => p == 0) = true ↔ (st.1.filter fun p => p.2 == 0).map Prod.fst ≠ [] := by
    rw [any_zero_iff hns, ← zeros_pos_iff hns, ← hi'.count, ← hlen, List.length_pos_iff]
  refine ⟨_, ?_, hmem, ?_, ?_⟩
  · exact ((List.filter_sublist (l := st.1)).map Prod.fst).nodup hns
  · unfold orderText
    simp only [bind, Except.bind, hl, hlen]
    by_cases h : (st.1.filter fun p => p.2 == 0).map Prod.fst = []
    · rw [if_pos h, if_neg (fun h' => hany.mp h' h)]
    · rw [if_neg h, if_pos (hany.mpr h)]
      unfold unsolvedText
      by_cases h1 : 1 < st.2
      · simp [h1]
      · simp [h1]
  · unfold orderPrecedence
    simp only [bind, Except.bind, hl]
    rw [← hany]
    split
    · simp_all
    · simp_all

/-- `a = b`, `b = a + 1`, `c = a`, `d = 2`: three parameters are not determined -/
def msDefs : Dict (Def Nat) :=
  [("a", .ast (.var "b")), ("b", .ast (.bin .add (.var "a") (.num 1))), ("c", .ast (.var "a")), ("d", .num 2)]

/-- the hypotheses of `C189_unsolved` are met -/
example : ∃ rhs, msDefs.keys.Nodup ∧ rhsVars msDefs = .ok rhs ∧ (∀ k v, Mentions msDefs k v → v ∈ msDefs.keys) ∧
    orderText rhs = .ok (some "could not solve parameter calibration: 3 unsolved parameters".toList) := by
  refine ⟨[("a", ["b"]), ("b", ["a"]), ("c", ["a"]), ("d", [])], by decide, rfl, ?_, by decide +kernel⟩
  rintro k v ⟨d, hm, hv⟩
  simp only [msDefs, List.mem_cons, List.not_mem_nil, or_false, Prod.mk.injEq] at hm
  rcases hm with ⟨-, rfl⟩ | ⟨-, rfl⟩ | ⟨-, rfl⟩ | ⟨-, rfl⟩ <;> simp [Def.vars, Expr.vars] at hv <;>
    simp [msDefs, Dict.keys, hv]

/-! ### messages about identification -/

theorem shownNum_digits (n : Nat) : ∀ c ∈ shownNum (some n), c.isDigit = true :=
  fun _ hc => Nat.isDigit_of_mem_toDigits (by decide) (by decide) hc

/-- **C190, order.**  If the number of explosive eigenvalues is not that of forward-looking variables, the check of the state
space fails with a message that states both numbers. -/
theorem C190_order_partial (la : LinAlg V) (t : Typer) (s : Space V)
    (h : (s.parts.eigs.countP fun x => x.big || x.inf) ≠ t.nForward) :
    s.verify la t = .error .identification ∧
      verifyText la t s = some ("model does not satisfy Blanchard-Kahn (1980) order condition: ".toList ++
        Nat.toDigits 10 (s.parts.eigs.countP fun x => x.big || x.inf) ++ " explosive eigenvalues and ".toList ++
        Nat.toDigits 10 t.nForward ++ " forward-facing variables".toList) := by
  constructor
  · unfold Space.verify
    rw [if_pos h]
  · unfold verifyText
    simp only
    rw [if_pos h]
    rfl

/-- **C190, messages of the check.**  The check fails exactly if there is a message, and the message is about the rank exactly if
both numbers agree. -/
theorem C190_check_partial (la : LinAlg V) (t : Typer) (s : Space V) :
    (s.verify la t = .ok () ↔ verifyText la t s = none) ∧
      (verifyText la t s = some "model does not satisfy Blanchard-Kahn (1980) rank condition".toList ↔
        (s.parts.eigs.countP fun x => x.big || x.inf) = t.nForward ∧ la.rank s.parts.Z22 ≠ s.parts.Z22.r) := by
  by_cases h : (s.parts.eigs.countP fun x => x.big || x.inf) = t.nForward
  · by_cases h2 : la.rank s.parts.Z22 = s.parts.Z22.r
    · simp [Space.verify, verifyText, h, h2]
    · have e : verifyText la t s = some "model does not satisfy Blanchard-Kahn (1980) rank condition".toList := by
        unfold verifyText
        simp only
        rw [if_neg (not_not.mpr h), if_pos h2]
        rfl
      rw [e]
      simp [Space.verify, h, h2]
  · rw [(C190_order_partial la t s h).1, (C190_order_partial la t s h).2]
    refine ⟨by simp, ⟨fun e => ?_, fun e => absurd e.1 h⟩⟩
    have e := Option.some.inj e
    simp only [List.append_assoc] at e
    have := congrArg (fun l => l[45]?) e
    simp at this

/-- **C190, static variables.**  If the rank of the rotated columns of the static variables is not their number, the message
states their number as the rank, and `None` as their number. -/
theorem C190_static [Zero V] [One V] [Add V] [Mul V] [Neg V] (la : LinAlg V) (t : Typer) (J : Arr V) {js Q R : Arr V}
    (hs : t.timed t.static 1 ≠ []) (hj : J.cols (t.timed t.static 1) = .ok js) (hq : la.qr js = .ok (Q, R))
    (hr : la.rank R ≠ t.nStatic) :
    rotated la t J = .error .identification ∧
      staticText la t J = .ok (some ("rank condition not met: model has rank ".toList ++ Nat.toDigits 10 t.nStatic ++
        " and there are None static variables".toList)) := by
  constructor
  · unfold rotated
    simp only
    rw [if_neg hs, hj]
    simp only [bind, Except.bind, hq]
    rw [if_pos hr]
  · unfold staticText
    simp only
    rw [if_neg hs, hj]
    simp only [bind, Except.bind, hq]
    rw [if_pos hr]
    simp [identText, shownNum]

/-- **C190 is false of static variables**: whatever the rank and the number of static variables are, the message is not the one
that states them. -/
theorem C190_false [Zero V] [One V] [Add V] [Mul V] [Neg V] (la : LinAlg V) (t : Typer) (J : Arr V) {js Q R : Arr V}
    (hs : t.timed t.static 1 ≠ []) (hj : J.cols (t.timed t.static 1) = .ok js) (hq : la.qr js = .ok (Q, R))
    (hr : la.rank R ≠ t.nStatic) :
    staticText la t J ≠ .ok (some ("rank condition not met: model has rank ".toList ++ Nat.toDigits 10 (la.rank R) ++
      " and there are ".toList ++ Nat.toDigits 10 t.nStatic ++ " static variables".toList)) := by
  rw [(C190_static la t J hs hj hq hr).2]
  intro e
  have e := Option.some.inj (Except.ok.inj e)
  have e : ("rank condition not met: model has rank ".toList ++ Nat.toDigits 10 t.nStatic ++ " and there are Non".toList) ++
      'e' :: " static variables".toList = ("rank condition not met: model has rank ".toList ++ shownNum (some (la.rank R)) ++
      " and there are ".toList) ++ (shownNum (some t.nStatic) ++ " static variables".toList) := by
    refine Eq.trans ?_ (e.trans ?_)
    · simp
    · simp [shownNum]
  rw [← List.append_assoc, show 'e' :: " static variables".toList = ['e'] ++ " static variables".toList from rfl,
    ← List.append_assoc] at e
  have e := List.append_cancel_right e
  have hd : shownNum (some t.nStatic) ≠ [] := Nat.toDigits_ne_nil
  have h1 := congrArg List.getLast? e
  rw [List.getLast?_append_of_ne_nil _ (by simp), List.getLast?_append_of_ne_nil _ hd] at h1
  have hm : 'e' ∈ shownNum (some t.nStatic) := List.mem_of_getLast? h1.symm
  exact absurd (shownNum_digits _ _ hm) (by decide)

/-- linear algebra for arrays of zeros, whose rank is zero -/
def msLa : LinAlg ℚ := { stLa with qr := fun a => .ok (Arr.eye a.r a.r 0, a), rank := fun _ => 0 }

/-- a static variable that occurs in no equation with a derivative that is not zero meets the hypotheses of `C190_static` and
`C190_false` -/
example : ∃ js Q R : Arr ℚ, stT.timed stT.static 1 ≠ [] ∧ (Arr.zeros 3 6 : Arr ℚ).cols (stT.timed stT.static 1) = .ok js ∧
    msLa.qr js = .ok (Q, R) ∧ msLa.rank R ≠ stT.nStatic ∧ R.e 0 0 = 0 ∧ R.c = 1 ∧
    staticText msLa stT (Arr.zeros 3 6) =
      .ok (some "rank condition not met: model has rank 1 and there are None static variables".toList) := by
  refine ⟨_, _, _, by decide +kernel, rfl, rfl, by decide +kernel, rfl, by decide +kernel, by decide +kernel⟩

/-- a model with a forward-looking variable and no explosive eigenvalue meets the hypothesis of `C190_order_partial` -/
example : ∃ s : Space ℚ, (s.parts.eigs.countP fun x => x.big || x.inf) ≠ stT.nForward ∧ verifyText stLa stT s = some
    ("model does not satisfy Blanchard-Kahn (1980) order condition: 0 explosive eigenvalues and 1 forward-facing variables").toList :=
  ⟨{ stSpace with parts := { stSpace.parts with eigs := [stab, stab, stab] } }, by decide +kernel, by decide +kernel⟩

/-- and one with a block without full rank the other case of `C190_check_partial` -/
example : verifyText msLa stT stSpace = some "model does not satisfy Blanchard-Kahn (1980) rank condition".toList := by
  decide +kernel

#print axioms C189_unsolved
#print axioms C190_order_partial
#print axioms C190_check_partial
#print axioms C190_static
#print axioms C190_false

end Pynare
