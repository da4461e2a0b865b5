import Verif.Lemmas.CalibEval
/-!
# C01 – C05: parameter calibration

`Mentions defs k v` – the definition of `k` mentions `v`; `IsSol ops defs ρ` – the
assignment `ρ` is defined exactly on the parameters and gives each the value of its own
definition; `calibVal c k` – the number the table `c` holds for `k`.  Numbers and
arithmetic (`ops`) are arbitrary, so the statements cover IEEE floats.
-/

namespace Pynare

variable {V : Type}

/-- **C01.** When a set of definitions is ordered, the order lists every parameter exactly
once, and whatever a definition mentions comes strictly before it. -/
theorem C01_order_is_topological {defs : Dict (Def V)} (hn : defs.keys.Nodup)
    {rhs : Dict (List String)} {l : List String} (hr : rhsVars defs = .ok rhs)
    (ho : orderPrecedence rhs = .ok l) :
    l.Perm defs.keys ∧ l.Nodup ∧
    ∀ pre k post, l = pre ++ k :: post → ∀ v, Mentions defs k v → v ∈ pre ∧ v ∉ k :: post := by
  have hk := rhsVars_keys hr
  have hnr : rhs.keys.Nodup := by rw [hk]; exact hn
  have hp := orderPrecedence_perm hnr ho
  have hln : l.Nodup := hp.nodup_iff.mpr hnr
  refine ⟨hk ▸ hp, hln, ?_⟩
  intro pre k post e v hv
  have := orderPrecedence_topo hnr ho pre k post e v ((dep_iff hr k v).mpr hv)
  refine ⟨this, fun h => ?_⟩
  rw [e] at hln
  exact (List.nodup_append.mp hln).2.2 v this v h rfl

/-- **C02.** On closed definitions the ordering succeeds exactly when there is no cycle;
otherwise the exception is `CalibrationError`. -/
theorem C02_order_succeeds_iff_acyclic {defs : Dict (Def V)} (hn : defs.keys.Nodup)
    {rhs : Dict (List String)} (hr : rhsVars defs = .ok rhs)
    (hclosed : ∀ k v, Mentions defs k v → v ∈ defs.keys) :
    ((∃ l, orderPrecedence rhs = .ok l) ↔ ∀ k, ¬ Relation.TransGen (Mentions defs) k k) ∧
    ((∃ k, Relation.TransGen (Mentions defs) k k) →
      orderPrecedence rhs = .error .calibrationError) := by
  have hk := rhsVars_keys hr
  have hnr : rhs.keys.Nodup := by rw [hk]; exact hn
  have hrel : Dep rhs = Mentions defs := by
    funext k v; exact propext (dep_iff hr k v)
  have hc : Closed rhs := by
    intro k r hm v hv
    rw [hk]
    exact hclosed k v ((dep_iff hr k v).mp ⟨r, hm, hv⟩)
  rw [← hrel]
  exact ⟨⟨fun ⟨l, h⟩ => orderPrecedence_acyclic hnr h, orderPrecedence_succeeds hnr hc⟩,
    orderPrecedence_cyclic hnr hc⟩

/-- **C02**, second half: a definition that mentions an undefined name makes the ordering
raise `KeyError` (whether or not there are cycles). -/
theorem C02_undefined_name_keyError {defs : Dict (Def V)} (hn : defs.keys.Nodup)
    {rhs : Dict (List String)} (hr : rhsVars defs = .ok rhs)
    (hopen : ∃ k v, Mentions defs k v ∧ v ∉ defs.keys) :
    orderPrecedence rhs = .error .keyError := by
  have hk := rhsVars_keys hr
  have hnr : rhs.keys.Nodup := by rw [hk]; exact hn
  apply orderPrecedence_undefined hnr
  intro hc
  obtain ⟨k, v, hm, hv⟩ := hopen
  obtain ⟨r, hmr, hvr⟩ := (dep_iff hr k v).mpr hm
  exact hv (hk ▸ hc k r hmr v hvr)

/-- **C03.** A successful calibration stores one number per parameter; these numbers solve
the definitions, and they are the only solution. -/
theorem C03_calibration_is_the_solution {ops : Ops V} {defs c : Dict (Def V)}
    (hn : defs.keys.Nodup) (h : solveCalibration ops defs = .ok c) :
    c.keys = defs.keys ∧ IsSol ops defs (calibVal c) ∧
    ∀ ρ, IsSol ops defs ρ → ρ = calibVal c :=
  ⟨(solve_sol hn h).1, (solve_sol hn h).2.2, fun _ hs => solve_unique hn h hs⟩

/-- **C03**, converse: acyclic closed definitions that have a solution are calibrated. -/
theorem C03_calibration_complete {ops : Ops V} {defs : Dict (Def V)} (hn : defs.keys.Nodup)
    (hloc : ∀ k d, (k, d) ∈ defs → ∃ r, rhsOf d = .ok r)
    (hclosed : ∀ k v, Mentions defs k v → v ∈ defs.keys)
    (hac : ∀ k, ¬ Relation.TransGen (Mentions defs) k k)
    {ρ : String → Option V} (hs : IsSol ops defs ρ) :
    ∃ c, solveCalibration ops defs = .ok c ∧ calibVal c = ρ := by
  obtain ⟨c, hc⟩ := solve_total hn hloc hclosed hac hs
  exact ⟨c, hc, (solve_unique hn hc hs).symm⟩

/-- one direction of C04 -/
theorem calib_perm_aux {ops : Ops V} {defs defs' c : Dict (Def V)} (hn : defs.keys.Nodup)
    (hp : defs.Perm defs') (h : solveCalibration ops defs = .ok c) :
    ∃ c', solveCalibration ops defs' = .ok c' ∧ ∀ k, calibVal c' k = calibVal c k := by
  have hn' : defs'.keys.Nodup := (hp.map Prod.fst).nodup_iff.mp hn
  have hg := Dict.get?_ext_of_perm hn hp
  have hs := (solve_sol hn h).2.2
  have hs' : IsSol ops defs' (calibVal c) := isSol_congr hg hs
  obtain ⟨rhs, l, hr, ho, _⟩ := solve_inv h
  have hk := rhsVars_keys hr
  have hnr : rhs.keys.Nodup := by rw [hk]; exact hn
  have hment : Mentions defs = Mentions defs' := by
    funext k v; apply propext
    unfold Mentions
    constructor
    · rintro ⟨d, hm, hv⟩; exact ⟨d, hp.mem_iff.mp hm, hv⟩
    · rintro ⟨d, hm, hv⟩; exact ⟨d, hp.mem_iff.mpr hm, hv⟩
  have hrel : Dep rhs = Mentions defs := by
    funext k v; exact propext (dep_iff hr k v)
  obtain ⟨c', hc'⟩ := solve_total hn'
    (fun k d hm => (rhsVars_ok_iff defs).mp ⟨rhs, hr⟩ k d (hp.mem_iff.mpr hm))
    (by
      intro k v hm
      rw [← hment] at hm
      obtain ⟨r, hmr, hvr⟩ := (dep_iff hr k v).mpr hm
      have := orderPrecedence_closed hnr ho k r hmr v hvr
      rw [hk] at this
      exact (hp.map Prod.fst).mem_iff.mp this)
    (by rw [← hment, ← hrel]; exact orderPrecedence_acyclic hnr ho) hs'
  exact ⟨c', hc', fun k => by rw [solve_unique hn' hc' hs']⟩

/-- **C04.** Calibration does not depend on the insertion order of the definitions: for two
orders of the same definitions either both raise or both give every parameter the same
value. -/
theorem C04_calibration_order_independent {ops : Ops V} {defs defs' : Dict (Def V)}
    (hn : defs.keys.Nodup) (hp : defs.Perm defs') :
    ((∃ e, solveCalibration ops defs = .error e) ∧ ∃ e, solveCalibration ops defs' = .error e) ∨
    ∃ c c', solveCalibration ops defs = .ok c ∧ solveCalibration ops defs' = .ok c' ∧
      ∀ k, calibVal c k = calibVal c' k := by
  have hn' : defs'.keys.Nodup := (hp.map Prod.fst).nodup_iff.mp hn
  cases h : solveCalibration ops defs with
  | ok c =>
    obtain ⟨c', h1, h2⟩ := calib_perm_aux hn hp h
    exact Or.inr ⟨c, c', rfl, h1, fun k => (h2 k).symm⟩
  | error e =>
    cases h' : solveCalibration ops defs' with
    | error e' => exact Or.inl ⟨⟨e, rfl⟩, ⟨e', rfl⟩⟩
    | ok c' =>
      obtain ⟨c, h1, _⟩ := calib_perm_aux hn' hp.symm h'
      rw [h] at h1; cases h1

/-! ### C05: histories of updates -/

/-- Operations on a calibration object. -/
inductive CalOp (V : Type) where
  | set (k : String) (d : Def V)
  | del (k : String)

/-- Run one operation: new object and exception, if any. -/
def CalOp.run (ops : Ops V) (c : Calibration V) : CalOp V → Calibration V × Option Err
  | .set k d => c.setItem ops k d
  | .del k => c.delItem k

/-- An object is consistent when its numbers solve its definitions. -/
def Consistent (ops : Ops V) (c : Calibration V) : Prop :=
  c.defs.keys.Nodup ∧ c.calib.keys.Nodup ∧ IsSol ops c.defs (calibVal c.calib) ∧
    ∀ k, k ∈ c.defs.keys ↔ k ∈ c.calib.keys

/-- An update that does what the property asks: it did not raise, and, if it is a deletion, no
remaining definition mentions the deleted name. -/
def GoodOp (ops : Ops V) (c : Calibration V) (o : CalOp V) : Prop :=
  (o.run ops c).2 = none ∧
    match o with
    | .set _ _ => True
    | .del k => ∀ k', k' ≠ k → ¬ Mentions c.defs k' k

/-- **C05, partial.**  The full statement – a failed update leaves the object unchanged and
the numbers always solve the definitions – is false (see the two refutations below).  What
holds for every history: as long as no update raises and no deleted parameter is still
mentioned, the numbers solve the definitions after every step. -/
theorem C05_history_consistent_partial (ops : Ops V) (c : Calibration V) (h : Consistent ops c) :
    ∀ (os : List (CalOp V)) (c' : Calibration V),
      (∀ pre o post, os = pre ++ o :: post →
        GoodOp ops (pre.foldl (fun s o => (o.run ops s).1) c) o) →
      c' = os.foldl (fun s o => (o.run ops s).1) c → Consistent ops c' := by
  intro os
  induction os generalizing c with
  | nil => intro c' _ e; subst e; exact h
  | cons o os ih =>
    intro c' hgood e
    apply ih (o.run ops c).1 _ c'
    · intro pre o' post e'
      have := hgood (o :: pre) o' post (by rw [e']; rfl)
      simpa using this
    · simpa using e
    · obtain ⟨hn1, hn2, hsol, hkk⟩ := h
      have hg := hgood [] o os rfl
      simp only [List.foldl_nil] at hg
      obtain ⟨hg1, hg2⟩ := hg
      cases o with
      | set k d =>
        simp only [CalOp.run, Calibration.setItem] at hg1 ⊢
        cases hs : solveCalibration ops (c.defs.set k d) with
        | error e => rw [hs] at hg1; simp at hg1
        | ok cal =>
          have hn := Dict.nodup_keys_set hn1 k d
          obtain ⟨r1, r2, r3⟩ := solve_sol hn hs
          refine ⟨hn, ?_, r3, ?_⟩
          · show cal.keys.Nodup
            rw [r1]; exact hn
          · intro x
            show x ∈ (c.defs.set k d).keys ↔ x ∈ cal.keys
            rw [r1]
      | del k =>
        simp only at hg2
        simp only [CalOp.run, Calibration.delItem] at hg1 ⊢
        cases hd : c.defs.get? k with
        | none => rw [hd] at hg1; simp at hg1
        | some d =>
          rw [hd] at hg1
          cases hc : c.calib.get? k with
          | none => rw [hc] at hg1; simp at hg1
          | some w =>
            simp only
            refine ⟨(Dict.keys_erase_sublist _ _).nodup hn1, (Dict.keys_erase_sublist _ _).nodup hn2,
              ⟨?_, ?_⟩, ?_⟩
            · intro x
              rw [← Dict.get?_isSome_iff, Dict.get?_erase hn1]
              simp only [calibVal, Dict.get?_erase hn2]
              by_cases e : k = x
              · simp [e]
              · simp only [e, if_false]
                have := hsol.dom x
                rw [← Dict.get?_isSome_iff] at this
                exact this
            · intro x dx hx
              rw [Dict.get?_erase hn1] at hx
              by_cases e : k = x
              · simp [e] at hx
              · simp only [e, if_false] at hx
                obtain ⟨v, h1, h2⟩ := hsol.fix x dx hx
                refine ⟨v, ?_, ?_⟩
                · simp only [calibVal, Dict.get?_erase hn2, e, if_false]
                  exact h1
                · rw [← h2]
                  apply value_congr
                  intro y hy
                  have hyk : k ≠ y := by
                    intro e'
                    subst e'
                    exact hg2 x (Ne.symm e) ⟨dx, Dict.mem_of_get? hx, hy⟩
                  simp only [calibVal, Dict.get?_erase hn2, hyk, if_false]
            · intro x
              rw [← Dict.get?_isSome_iff, ← Dict.get?_isSome_iff, Dict.get?_erase hn1,
                Dict.get?_erase hn2]
              by_cases e : k = x
              · simp [e]
              · simp only [e, if_false]
                rw [Dict.get?_isSome_iff, Dict.get?_isSome_iff]
                exact hkk x

/-- **C05, partial.**  A failed assignment leaves the stored numbers (what `calib[k]` reads)
unchanged. -/
theorem C05_failed_set_keeps_values_partial (ops : Ops V) (c : Calibration V) (k : String)
    (d : Def V) (e : Err) (h : (c.setItem ops k d).2 = some e) :
    (c.setItem ops k d).1.calib = c.calib := by
  unfold Calibration.setItem at *
  cases hs : solveCalibration ops (c.defs.set k d) with
  | ok cal => simp [hs] at h
  | error e' => simp [hs]

/-- A concrete arithmetic for witnesses: rationals are not needed, natural numbers with `+`
are enough; every other operation raises. -/
def natOps : Ops Nat where
  bin op a b := match op with
    | .add => .ok (a + b)
    | _ => .error .zeroDivision
  un _ _ := .error .typeError
  cmp _ _ _ := .error .typeError
  fn _ _ := .error .typeError

/-- `a = 1; b = a + a`. -/
def defsAB : Dict (Def Nat) :=
  [("b", .ast (.bin .add (.var "a") (.var "a"))), ("a", .num 1)]

/-- The calibration object of `defsAB`. -/
def calAB : Calibration Nat := ⟨defsAB, [("b", .num 2), ("a", .num 1)]⟩

theorem calAB_created : Calibration.create natOps defsAB = .ok calAB := by
  rfl

/-- **C05 is false**: after the assignment `a = b + 1` was refused (it closes a cycle), the
object's definitions have changed, and the next assignment `c = 7`, which is fine on its own,
is refused too although it succeeds on an object that never saw the failed one. -/
theorem C05_failed_set_pollutes :
    ∃ (c : Calibration Nat) (d d' : Def Nat),
      Calibration.create natOps defsAB = .ok c ∧
      (c.setItem natOps "a" d).2 = some .calibrationError ∧
      (c.setItem natOps "a" d).1.defs.get? "a" ≠ c.defs.get? "a" ∧
      ((c.setItem natOps "a" d).1.setItem natOps "c" d').2 = some .calibrationError ∧
      (c.setItem natOps "c" d').2 = none := by
  refine ⟨calAB, .ast (.bin .add (.var "b") (.num 1)), .num 7, by rfl, by rfl, ?_, by rfl, by rfl⟩
  simp [Calibration.setItem, calAB, defsAB, Dict.set, Dict.get?]
  intro h
  split at h <;> simp [Dict.get?] at h

/-- **C05 is false**, second way: deleting a parameter that others mention does not raise and
leaves an object whose definitions have no solution. -/
theorem C05_delete_leaves_dangling :
    ∃ c : Calibration Nat, Calibration.create natOps defsAB = .ok c ∧ (c.delItem "a").2 = none ∧
      ¬ Consistent natOps (c.delItem "a").1 := by
  refine ⟨calAB, by rfl, by rfl, ?_⟩
  rintro ⟨_, _, hs, _⟩
  obtain ⟨v, _, h⟩ := hs.fix "b" _ rfl
  cases h

/-! ### The hypotheses are met -/

example : defsAB.keys.Nodup := by decide
example : rhsVars defsAB = .ok [("b", ["a"]), ("a", [])] := by rfl
example : orderPrecedence [("b", ["a"]), ("a", [])] = .ok ["a", "b"] := by rfl
example : solveCalibration natOps defsAB = .ok [("b", .num 2), ("a", .num 1)] := by rfl
example : Consistent natOps calAB :=
  ⟨by decide, by decide, (solve_sol (by decide) (by rfl : solveCalibration natOps defsAB = .ok calAB.calib)).2.2,
    by intro k; rfl⟩
/-- a cyclic closed example for C02 -/
example : orderPrecedence [("b", ["a"]), ("a", ["b"])] = .error .calibrationError := by rfl
/-- an open example for C02 -/
example : orderPrecedence [("b", ["z"])] = .error .keyError := by rfl
/-- a history with a replacement, an addition and a deletion for C05 -/
example : ([CalOp.set "a" (.num 5), .set "c" (.num 3), .del "c"] : List (CalOp Nat)).foldl
    (fun s o => (o.run natOps s).1) calAB =
    ⟨[("b", .ast (.bin .add (.var "a") (.var "a"))), ("a", .num 5)], [("b", .num 10), ("a", .num 5)]⟩ := by
  rfl

#print axioms C01_order_is_topological
#print axioms C02_order_succeeds_iff_acyclic
#print axioms C02_undefined_name_keyError
#print axioms C03_calibration_is_the_solution
#print axioms C03_calibration_complete
#print axioms C04_calibration_order_independent
#print axioms C05_history_consistent_partial
#print axioms C05_failed_set_keeps_values_partial
#print axioms C05_failed_set_pollutes
#print axioms C05_delete_leaves_dangling

end Pynare
