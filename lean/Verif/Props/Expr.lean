import Verif.Lemmas.Expr
/-!
# C17 – C19: expressions

`eval ops (dictScope d) e` is `evaluate(e, scope=d)`.  The specification (`Evals`, `Cause`,
`Expr.vars`) is in `Verif/Spec/Expr.lean`.
-/

namespace Pynare

variable {V : Type}

/-- **C17.** Two scopes that agree on the names occurring in an expression give the same value
or the same error. -/
theorem C17_eval_depends_on_names (ops : Ops V) {d d' : Dict V} {e : Expr V}
    (h : ∀ x ∈ e.vars, d.get? x = d'.get? x) :
    eval ops (dictScope d) e = eval ops (dictScope d') e :=
  eval_congr ops fun x hx => by simp only [dictScope, h x hx]

/-- **C18**, meaning: the evaluator returns `v` exactly when `v` is the mathematical value. -/
theorem C18_eval_correct (ops : Ops V) (d : Dict V) (e : Expr V) (v : V) :
    eval ops (dictScope d) e = .ok v ↔ Evals ops d.get? e v := by
  apply eval_iff_evals
  intro x w
  simp only [dictScope]
  cases d.get? x <;> simp

/-- **C18.** Evaluation fails if and only if some subexpression is a name the scope lacks, a
name with a period, an unsupported function, or an operation that fails on its operands. -/
theorem C18_eval_fails_iff (ops : Ops V) (d : Dict V) (e : Expr V) :
    (∃ err, eval ops (dictScope d) e = .error err) ↔ ∃ s, Sub s e ∧ Cause ops d.get? s := by
  constructor
  · rintro ⟨err, h⟩
    induction e generalizing err with
    | num w => cases h
    | var x =>
      simp only [eval, dictScope] at h
      split at h
      · cases h
      · rename_i hx; exact ⟨_, .refl, .missing hx⟩
    | pvar x o => exact ⟨_, .refl, .period⟩
    | un op e ih =>
      simp only [eval, bind, Except.bind] at h
      cases he : eval ops (dictScope d) e with
      | error er => obtain ⟨s, h1, h2⟩ := ih _ he; exact ⟨s, .un h1, h2⟩
      | ok a => rw [he] at h; exact ⟨_, .refl, .un ((C18_eval_correct ops d e a).mp he) h⟩
    | bin op l r ihl ihr =>
      simp only [eval, bind, Except.bind] at h
      cases hl : eval ops (dictScope d) l with
      | error er => obtain ⟨s, h1, h2⟩ := ihl _ hl; exact ⟨s, .binl h1, h2⟩
      | ok a =>
        rw [hl] at h
        cases hr : eval ops (dictScope d) r with
        | error er => obtain ⟨s, h1, h2⟩ := ihr _ hr; exact ⟨s, .binr h1, h2⟩
        | ok b =>
          rw [hr] at h
          exact ⟨_, .refl, .bin ((C18_eval_correct ops d l a).mp hl)
            ((C18_eval_correct ops d r b).mp hr) h⟩
    | cmp op l r ihl ihr =>
      simp only [eval, bind, Except.bind] at h
      cases hl : eval ops (dictScope d) l with
      | error er => obtain ⟨s, h1, h2⟩ := ihl _ hl; exact ⟨s, .cmpl h1, h2⟩
      | ok a =>
        rw [hl] at h
        cases hr : eval ops (dictScope d) r with
        | error er => obtain ⟨s, h1, h2⟩ := ihr _ hr; exact ⟨s, .cmpr h1, h2⟩
        | ok b =>
          rw [hr] at h
          exact ⟨_, .refl, .cmp ((C18_eval_correct ops d l a).mp hl)
            ((C18_eval_correct ops d r b).mp hr) h⟩
    | fn f e ih =>
      simp only [eval, bind, Except.bind] at h
      split at h
      · rename_i hu
        refine ⟨_, .refl, .unsupported ?_⟩
        cases f <;> simp [Fn.unsupported] at hu ⊢
      · rename_i hu
        cases he : eval ops (dictScope d) e with
        | error er => obtain ⟨s, h1, h2⟩ := ih _ he; exact ⟨s, .fn h1, h2⟩
        | ok a =>
          rw [he] at h
          exact ⟨_, .refl, .fn (applies_of_not_unsupported (by simpa using hu))
            ((C18_eval_correct ops d e a).mp he) h⟩
  · rintro ⟨s, hs, hc⟩
    have key : ∀ err, eval ops (dictScope d) s = .error err →
        ∃ err, eval ops (dictScope d) e = .error err := by
      intro err0 h0
      clear hc
      induction hs with
      | refl => exact ⟨_, h0⟩
      | un _ ih => obtain ⟨er, h⟩ := ih; exact ⟨er, by simp only [eval, bind, Except.bind, h]⟩
      | binl _ ih => obtain ⟨er, h⟩ := ih; exact ⟨er, by simp only [eval, bind, Except.bind, h]⟩
      | @binr op l r _ ih =>
        obtain ⟨er, h⟩ := ih
        cases hl : eval ops (dictScope d) l with
        | error e' => exact ⟨e', by simp only [eval, bind, Except.bind, hl]⟩
        | ok a => exact ⟨er, by simp only [eval, bind, Except.bind, hl, h]⟩
      | cmpl _ ih => obtain ⟨er, h⟩ := ih; exact ⟨er, by simp only [eval, bind, Except.bind, h]⟩
      | @cmpr op l r _ ih =>
        obtain ⟨er, h⟩ := ih
        cases hl : eval ops (dictScope d) l with
        | error e' => exact ⟨e', by simp only [eval, bind, Except.bind, hl]⟩
        | ok a => exact ⟨er, by simp only [eval, bind, Except.bind, hl, h]⟩
      | @fn f e _ ih =>
        obtain ⟨er, h⟩ := ih
        cases hu : f.unsupported with
        | true => exact ⟨.notImplemented, by simp only [eval, hu, if_true]⟩
        | false => exact ⟨er, by simp only [eval, hu, bind, Except.bind, h]; rfl⟩
    cases hc with
    | missing h => exact key .syntaxError (by simp only [eval, dictScope, h])
    | period => exact key .exception rfl
    | unsupported h =>
      refine key .notImplemented ?_
      rcases h with rfl | rfl | rfl | rfl <;> rfl
    | un h1 h2 =>
      exact key _ (by simp only [eval, bind, Except.bind, (C18_eval_correct ops d _ _).mpr h1]; exact h2)
    | bin h1 h2 h3 =>
      exact key _ (by
        simp only [eval, bind, Except.bind, (C18_eval_correct ops d _ _).mpr h1,
          (C18_eval_correct ops d _ _).mpr h2]
        exact h3)
    | cmp h1 h2 h3 =>
      exact key _ (by
        simp only [eval, bind, Except.bind, (C18_eval_correct ops d _ _).mpr h1,
          (C18_eval_correct ops d _ _).mpr h2]
        exact h3)
    | fn ha h1 h2 =>
      obtain ⟨hu, hg⟩ := applies_inv ha
      subst hg
      exact key _ (by
        simp only [eval, bind, Except.bind, (C18_eval_correct ops d _ _).mpr h1, hu]
        exact h2)

/-- First scope overriding a second one. -/
def overriding (σ : String → Option V) (d : Dict V) (x : String) : Except Err V :=
  match σ x with
  | some v => .ok v
  | none => dictScope d x

theorem maybeSubst_un (σ : String → Option V) (op e) :
    maybeSubst σ (.un op e) = .un op e := rfl
theorem maybeSubst_bin (σ : String → Option V) (op l r) :
    maybeSubst σ (.bin op l r) = .bin op l r := rfl
theorem maybeSubst_fn (σ : String → Option V) (f e) :
    maybeSubst σ (.fn f e) = .fn f e := rfl

theorem maybeSubst_of_ne (σ : String → Option V) (e : Expr V)
    (h : ∀ x, e ≠ .var x) : maybeSubst σ e = e := by
  cases e <;> first | rfl | exact absurd rfl (h _)

/-- helper for C19 covering the root-variable case -/
theorem subst_aux (ops : Ops V) (σ : String → Option V) (d : Dict V) :
    ∀ (e e' : Expr V), substVisit σ e = .ok e' →
      eval ops (dictScope d) (maybeSubst σ e') = eval ops (overriding σ d) e ∧
      (∀ x ∈ (maybeSubst σ e').vars, σ x = none) ∧
      ((∃ x, e' = .var x) → e' = e) := by
  intro e
  induction e with
  | num v => intro e' h; cases h; exact ⟨rfl, by simp [maybeSubst, Expr.vars], fun _ => rfl⟩
  | var x =>
    intro e' h; cases h
    refine ⟨?_, ?_, fun _ => rfl⟩
    · simp only [maybeSubst, eval, overriding]
      cases σ x <;> rfl
    · intro y hy
      simp only [maybeSubst] at hy
      cases hs : σ x with
      | none => rw [hs] at hy; simp [Expr.vars] at hy; rw [hy]; exact hs
      | some v => rw [hs] at hy; simp [Expr.vars] at hy
  | pvar x o => intro e' h; cases h; exact ⟨rfl, by simp [maybeSubst, Expr.vars], fun _ => rfl⟩
  | cmp op l r _ _ => intro e' h; cases h
  | un op e ih =>
    intro e' h
    simp only [substVisit, bind, Except.bind] at h
    cases he : substVisit σ e with
    | error er => rw [he] at h; cases h
    | ok w =>
      rw [he] at h; cases h
      obtain ⟨h1, h2, h3⟩ := ih w he
      exact ⟨by simp only [maybeSubst_un, maybeSubst_bin, maybeSubst_fn, eval, h1], h2, by simp⟩
  | bin op l r ihl ihr =>
    intro e' h
    simp only [substVisit, bind, Except.bind] at h
    cases hl : substVisit σ l with
    | error er => rw [hl] at h; cases h
    | ok a =>
      rw [hl] at h
      cases hr : substVisit σ r with
      | error er => rw [hr] at h; cases h
      | ok b =>
        rw [hr] at h; cases h
        obtain ⟨h1, h2, _⟩ := ihl a hl
        obtain ⟨g1, g2, _⟩ := ihr b hr
        refine ⟨by simp only [maybeSubst_un, maybeSubst_bin, maybeSubst_fn, eval, h1, g1], ?_, by simp⟩
        intro x hx
        rcases List.mem_append.mp hx with hx | hx
        · exact h2 x hx
        · exact g2 x hx
  | fn f e ih =>
    intro e' h
    simp only [substVisit, bind, Except.bind] at h
    split at h
    · rename_i v hv
      cases h
      have : eval ops (overriding σ d) e = .ok v := by
        cases e with
        | var x =>
          simp only [maybeSubst] at hv
          simp only [eval, overriding]
          cases hs : σ x with
          | none => rw [hs] at hv; cases hv
          | some w => rw [hs] at hv; cases hv; rfl
        | num w => cases hv; rfl
        | _ => cases hv
      refine ⟨by simp only [maybeSubst_un, maybeSubst_bin, maybeSubst_fn, eval, this], by simp [maybeSubst, Expr.vars], by simp⟩
    · rename_i hv
      cases he : substVisit σ e with
      | error er => rw [he] at h; cases h
      | ok w =>
        rw [he] at h; cases h
        obtain ⟨h1, h2, h3⟩ := ih w he
        have hw : maybeSubst σ w = w := by
          cases w with
          | var x =>
            have := h3 ⟨x, rfl⟩
            subst this
            simp only [maybeSubst] at hv ⊢
            cases hs : σ x with
            | none => rfl
            | some u => rw [hs] at hv; exact absurd rfl (hv u)
          | _ => rfl
        rw [hw] at h1 h2
        refine ⟨by simp only [maybeSubst_un, maybeSubst_bin, maybeSubst_fn, eval, h1], h2, by simp⟩

/-- **C19.** Substituting the numbers of one scope into an expression and evaluating the result
in a second scope gives what the original gives in the second scope overridden by the first;
and the replaced names no longer occur.  (An expression that is a single name is returned
unchanged by the substituter: see `C19_bare_name_not_substituted`.) -/
theorem C19_substitution_partial (ops : Ops V) (σ : String → Option V) (d : Dict V)
    (e e' : Expr V) (hroot : ∀ x, e ≠ .var x) (h : substVisit σ e = .ok e') :
    eval ops (dictScope d) e' = eval ops (overriding σ d) e ∧ ∀ x ∈ e'.vars, σ x = none := by
  obtain ⟨h1, h2, h3⟩ := subst_aux ops σ d e e' h
  have : maybeSubst σ e' = e' := by
    apply maybeSubst_of_ne σ
    intro x hx
    exact hroot x ((h3 ⟨x, hx⟩) ▸ hx)
  rw [this] at h1 h2
  exact ⟨h1, h2⟩

/-- **C19**, domain: the substituter is defined exactly on the comparison-free expressions. -/
theorem C19_substitution_defined (σ : String → Option V) (e : Expr V) :
    (∃ e', substVisit σ e = .ok e') ↔ e.hasCmp = false := by
  induction e with
  | num v => simp [substVisit, Expr.hasCmp]
  | var x => simp [substVisit, Expr.hasCmp]
  | pvar x o => simp [substVisit, Expr.hasCmp]
  | cmp op l r _ _ => simp [substVisit, Expr.hasCmp]
  | un op e ih =>
    simp only [substVisit, Expr.hasCmp, bind, Except.bind, ← ih]
    cases substVisit σ e <;> simp
  | bin op l r ihl ihr =>
    simp only [substVisit, Expr.hasCmp, bind, Except.bind, Bool.or_eq_false_iff, ← ihl, ← ihr]
    cases substVisit σ l <;> cases substVisit σ r <;> simp
  | fn f e ih =>
    simp only [substVisit, Expr.hasCmp, bind, Except.bind, ← ih]
    split
    · rename_i v hv
      cases e with
      | var x => simp [substVisit]
      | num w => simp [substVisit]
      | _ => cases hv
    · cases substVisit σ e <;> simp

/-- **C19 is false for a bare name**: the substituter leaves the expression `a` alone although
the scope has a value for it, so the replaced name still matters. -/
theorem C19_bare_name_not_substituted :
    ∃ (σ : String → Option Nat) (e e' : Expr Nat) (ops : Ops Nat) (d : Dict Nat),
      substVisit σ e = .ok e' ∧ eval ops (dictScope d) e' ≠ eval ops (overriding σ d) e :=
  ⟨fun _ => some 1, .var "a", .var "a",
    ⟨fun _ a _ => .ok a, fun _ a => .ok a, fun _ a _ => .ok a, fun _ a => .ok a⟩, [], rfl,
    by intro h; cases h⟩

/-! ### The hypotheses are met -/

/-- `log(a + -b)` with `a` replaced -/
example : substVisit (fun x => if x = "a" then some 3 else none)
    (.fn .log (.bin .add (.var "a") (.un .neg (.var "b"))) : Expr Nat) =
    .ok (.fn .log (.bin .add (.num 3) (.un .neg (.var "b")))) := by rfl
example : ∀ x, (.fn .log (.bin .add (.var "a") (.un .neg (.var "b"))) : Expr Nat) ≠ .var x := by
  intro x h; cases h
example : ∀ x ∈ (.bin .add (.var "a") (.num 2) : Expr Nat).vars,
    Dict.get? [("a", 1), ("c", 5)] x = Dict.get? [("c", 7), ("a", 1)] x := by
  intro x hx
  simp [Expr.vars] at hx
  subst hx; decide

#print axioms C17_eval_depends_on_names
#print axioms C18_eval_correct
#print axioms C18_eval_fails_iff
#print axioms C19_substitution_partial
#print axioms C19_substitution_defined
#print axioms C19_bare_name_not_substituted

end Pynare
