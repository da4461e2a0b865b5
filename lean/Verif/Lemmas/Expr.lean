import Verif.Spec.Expr
import Verif.Lemmas.Dict
/-! Helper lemmas about expressions. -/

namespace Pynare

variable {V : Type}

theorem eval_congr (ops : Ops V) {s s' : String → Except Err V} :
    ∀ {e : Expr V}, (∀ x ∈ e.vars, s x = s' x) → eval ops s e = eval ops s' e := by
  intro e
  induction e with
  | num v => intro _; rfl
  | var x => intro h; exact h x (by simp [Expr.vars])
  | pvar x o => intro _; rfl
  | un op e ih => intro h; simp only [eval]; rw [ih h]
  | bin op l r ihl ihr =>
    intro h
    simp only [eval]
    rw [ihl (fun x hx => h x (by simp [Expr.vars, hx])),
      ihr (fun x hx => h x (by simp [Expr.vars, hx]))]
  | cmp op l r ihl ihr =>
    intro h
    simp only [eval]
    rw [ihl (fun x hx => h x (by simp [Expr.vars, hx])),
      ihr (fun x hx => h x (by simp [Expr.vars, hx]))]
  | fn f e ih => intro h; simp only [eval]; rw [ih h]

theorem applies_of_not_unsupported {f : Fn} (h : f.unsupported = false) :
    Applies f (if f = .ln then .log else f) := by
  cases f <;> first | exact Applies.ln | (exact Applies.self (by decide) (by decide) (by decide) (by decide) (by decide)) | cases h

theorem applies_inv {f g : Fn} (h : Applies f g) :
    f.unsupported = false ∧ g = if f = .ln then .log else f := by
  cases h with
  | ln => exact ⟨rfl, rfl⟩
  | self h1 h2 h3 h4 h5 =>
    refine ⟨?_, by simp [h1]⟩
    cases f <;> first | rfl | contradiction

/-- evaluation in a scope that answers as `ρ` -/
theorem eval_iff_evals (ops : Ops V) {look : String → Except Err V} {ρ : String → Option V}
    (hl : ∀ x v, look x = .ok v ↔ ρ x = some v) (e : Expr V) (v : V) :
    eval ops look e = .ok v ↔ Evals ops ρ e v := by
  constructor
  · intro h
    induction e generalizing v with
    | num w => simp only [eval] at h; injection h with h; subst h; exact .num
    | var x => exact .var ((hl x v).mp h)
    | pvar x o => cases h
    | un op e ih =>
      simp only [eval, bind, Except.bind] at h
      cases he : eval ops look e with
      | error _ => rw [he] at h; cases h
      | ok a => rw [he] at h; exact .un (ih a he) h
    | bin op l r ihl ihr =>
      simp only [eval, bind, Except.bind] at h
      cases hl : eval ops look l with
      | error _ => rw [hl] at h; cases h
      | ok a =>
        rw [hl] at h
        cases hr : eval ops look r with
        | error _ => rw [hr] at h; cases h
        | ok b => rw [hr] at h; exact .bin (ihl a hl) (ihr b hr) h
    | cmp op l r ihl ihr =>
      simp only [eval, bind, Except.bind] at h
      cases hl : eval ops look l with
      | error _ => rw [hl] at h; cases h
      | ok a =>
        rw [hl] at h
        cases hr : eval ops look r with
        | error _ => rw [hr] at h; cases h
        | ok b => rw [hr] at h; exact .cmp (ihl a hl) (ihr b hr) h
    | fn f e ih =>
      simp only [eval, bind, Except.bind] at h
      split at h
      · cases h
      · rename_i hu
        cases he : eval ops look e with
        | error _ => rw [he] at h; cases h
        | ok a =>
          rw [he] at h
          exact .fn (applies_of_not_unsupported (by simpa using hu)) (ih a he) h
  · intro h
    induction h with
    | num => rfl
    | var h => exact (hl _ _).mpr h
    | un _ h ih => simp only [eval, bind, Except.bind, ih, h]
    | bin _ _ h ih1 ih2 => simp only [eval, bind, Except.bind, ih1, ih2, h]
    | cmp _ _ h ih1 ih2 => simp only [eval, bind, Except.bind, ih1, ih2, h]
    | fn ha _ h ih =>
      obtain ⟨hu, hg⟩ := applies_inv ha
      subst hg
      simp only [eval, bind, Except.bind, ih, hu]
      exact h

theorem evals_unique {ops : Ops V} {ρ : String → Option V} {e : Expr V} {v w : V}
    (h : Evals ops ρ e v) (h' : Evals ops ρ e w) : v = w := by
  have hl : ∀ x v, (fun x => match ρ x with | some v => Except.ok (ε := Err) v | none => .error .syntaxError) x
      = .ok v ↔ ρ x = some v := by
    intro x v; simp only; cases ρ x <;> simp
  have a := (eval_iff_evals ops hl e v).mpr h
  have b := (eval_iff_evals ops hl e w).mpr h'
  rw [a] at b; simpa using b

theorem evals_congr {ops : Ops V} {ρ ρ' : String → Option V} {e : Expr V} {v : V}
    (h : Evals ops ρ e v) (hx : ∀ x ∈ e.vars, ρ x = ρ' x) : Evals ops ρ' e v := by
  induction h with
  | num => exact .num
  | @var x v h => exact .var (by rw [← hx x (by simp [Expr.vars])]; exact h)
  | un _ h ih => exact .un (ih hx) h
  | bin _ _ h ih1 ih2 =>
    exact .bin (ih1 fun x hm => hx x (by simp [Expr.vars, hm]))
      (ih2 fun x hm => hx x (by simp [Expr.vars, hm])) h
  | cmp _ _ h ih1 ih2 =>
    exact .cmp (ih1 fun x hm => hx x (by simp [Expr.vars, hm]))
      (ih2 fun x hm => hx x (by simp [Expr.vars, hm])) h
  | fn ha _ h ih => exact .fn ha (ih hx) h

theorem evals_defined {ops : Ops V} {ρ : String → Option V} {e : Expr V} {v : V}
    (h : Evals ops ρ e v) : ∀ x ∈ e.vars, ∃ w, ρ x = some w := by
  induction h with
  | num => simp [Expr.vars]
  | @var x v h => intro y hy; simp [Expr.vars] at hy; subst hy; exact ⟨v, h⟩
  | un _ _ ih => exact ih
  | bin _ _ _ ih1 ih2 =>
    intro y hy
    simp only [Expr.vars, List.mem_append] at hy
    exact hy.elim (ih1 y) (ih2 y)
  | cmp _ _ _ ih1 ih2 =>
    intro y hy
    simp only [Expr.vars, List.mem_append] at hy
    exact hy.elim (ih1 y) (ih2 y)
  | fn _ _ _ ih => exact ih

end Pynare
