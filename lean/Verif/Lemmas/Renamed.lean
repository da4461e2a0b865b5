import Verif.Spec.Renamed
import Verif.Lemmas.Dict
import Verif.Lemmas.Exprs
import Verif.Lemmas.Build
import Mathlib.Data.List.Sort
/-! # Lemmas about models with other names -/

namespace Pynare

variable {V SS S : Type} {φ : String → String} {N : String → Prop}

/-- different names stay different -/
def InjOn (φ : String → String) (N : String → Prop) : Prop := ∀ a b, N a → N b → (φ a = φ b ↔ a = b)

theorem KeepsApart.inj {ok : String → Bool} (h : KeepsApart φ N ok) : InjOn φ N := by
  intro a b ha hb
  have := h.apart a b ha hb "" (by simp) "" (by simp)
  simpa using this

/-! ### dictionaries -/

theorem Dict.keys_rename {α β : Type} (f : α → β) (d : Dict α) : (d.rename φ f).keys = d.keys.map φ := by
  simp [Dict.rename, Dict.keys, Function.comp_def]

theorem Dict.get?_rename {α β : Type} (hi : InjOn φ N) (f : α → β) {d : Dict α} (hd : ∀ x ∈ d.keys, N x) {x : String}
    (hx : N x) : (d.rename φ f).get? (φ x) = (d.get? x).map f := by
  induction d with
  | nil => rfl
  | cons p d ih =>
    obtain ⟨k, v⟩ := p
    have hk : N k := hd k (by simp [Dict.keys])
    have ih := ih fun y hy => hd y (by simp only [Dict.keys, List.map_cons, List.mem_cons] at hy ⊢; exact .inr hy)
    show (if φ k = φ x then some (f v) else Dict.get? (Dict.rename φ f d) (φ x)) = _
    simp only [Dict.get?, hi k x hk hx, ih]
    by_cases e : k = x <;> simp [e]

theorem Dict.set_rename {α β : Type} (hi : InjOn φ N) (f : α → β) {d : Dict α} (hd : ∀ x ∈ d.keys, N x) {x : String}
    (hx : N x) (v : α) : (d.set x v).rename φ f = (d.rename φ f).set (φ x) (f v) := by
  induction d with
  | nil => rfl
  | cons p d ih =>
    obtain ⟨k, w⟩ := p
    have hk : N k := hd k (by simp [Dict.keys])
    have ih := ih fun y hy => hd y (by simp only [Dict.keys, List.map_cons, List.mem_cons] at hy ⊢; exact .inr hy)
    show Dict.rename φ f (if k = x then (k, v) :: d else (k, w) :: Dict.set d x v) =
      if φ k = φ x then (φ k, f v) :: Dict.rename φ f d else (φ k, f w) :: Dict.set (Dict.rename φ f d) (φ x) (f v)
    simp only [hi k x hk hx, ← ih]
    by_cases e : k = x <;> simp [e, Dict.rename]

theorem keys_set_in {α : Type} {d : Dict α} (hd : ∀ x ∈ d.keys, N x) {x : String} (hx : N x) (v : α) :
    ∀ y ∈ (d.set x v).keys, N y := by
  intro y hy
  by_cases h : x ∈ d.keys
  · rw [Dict.keys_set_of_mem h] at hy; exact hd y hy
  · rw [Dict.keys_set_of_not_mem h] at hy
    rcases List.mem_append.mp hy with hy | hy
    · exact hd y hy
    · simp only [List.mem_singleton] at hy; rw [hy]; exact hx

/-! ### outcomes -/

/-- `Except.map`, spelled for `simp` -/
theorem map_bind_ok {α β γ : Type} (f : α → β) (x : Except Err α) (g : β → Except Err γ) :
    ((Except.map f x) >>= g) = x >>= fun a => g (f a) := by cases x <;> rfl

/-- two computations that raise the same exception or return related values -/
inductive SameOutcome {α β : Type} (R : α → β → Prop) : Except Err α → Except Err β → Prop
  | ok {a b} : R a b → SameOutcome R (.ok a) (.ok b)
  | error {e} : SameOutcome R (.error e) (.error e)

theorem SameOutcome.bind {α β γ δ : Type} {R : α → β → Prop} {Q : γ → δ → Prop} {x : Except Err α} {y : Except Err β}
    (h : SameOutcome R x y) {f : α → Except Err γ} {g : β → Except Err δ}
    (hfg : ∀ a b, x = .ok a → y = .ok b → R a b → SameOutcome Q (f a) (g b)) : SameOutcome Q (x >>= f) (y >>= g) := by
  cases h with
  | error => exact .error
  | ok h => exact hfg _ _ rfl rfl h

theorem SameOutcome.swap {α β : Type} {R : α → β → Prop} {x : Except Err α} {y : Except Err β} (h : SameOutcome R x y) :
    SameOutcome (fun b a => R a b) y x := by
  cases h with
  | error => exact .error
  | ok h => exact .ok h

theorem SameOutcome.of_eq {α : Type} {x y : Except Err α} (h : x = y) : SameOutcome Eq x y := by
  subst h; cases x <;> constructor; rfl

theorem SameOutcome.to_eq {α : Type} {x y : Except Err α} (h : SameOutcome Eq x y) : x = y := by
  cases h with
  | error => rfl
  | ok h => rw [h]

/-! ### calibrations -/

theorem rename_vars (e : Expr V) : (e.rename φ).vars = e.vars.map φ := by
  induction e <;> simp_all [Expr.rename, Expr.vars]

theorem eval_rename {ops : Ops V} {look look' : String → Except Err V} {e : Expr V}
    (h : ∀ x ∈ e.names, look' (φ x) = look x) : eval ops look' (e.rename φ) = eval ops look e := by
  induction e with
  | num => rfl
  | var x => exact h x (by simp [Expr.names, Expr.vars])
  | pvar => rfl
  | un op e ih => simp only [Expr.rename, eval, ih (fun x hx => h x hx)]
  | bin op l r ihl ihr =>
    have h1 : ∀ x ∈ l.names, look' (φ x) = look x := fun x hx => h x (by
      simp only [Expr.names, Expr.vars, Expr.pvars, List.mem_append, List.map_append] at hx ⊢; tauto)
    have h2 : ∀ x ∈ r.names, look' (φ x) = look x := fun x hx => h x (by
      simp only [Expr.names, Expr.vars, Expr.pvars, List.mem_append, List.map_append] at hx ⊢; tauto)
    simp only [Expr.rename, eval, ihl h1, ihr h2]
  | cmp op l r ihl ihr =>
    have h1 : ∀ x ∈ l.names, look' (φ x) = look x := fun x hx => h x (by
      simp only [Expr.names, Expr.vars, Expr.pvars, List.mem_append, List.map_append] at hx ⊢; tauto)
    have h2 : ∀ x ∈ r.names, look' (φ x) = look x := fun x hx => h x (by
      simp only [Expr.names, Expr.vars, Expr.pvars, List.mem_append, List.map_append] at hx ⊢; tauto)
    simp only [Expr.rename, eval, ihl h1, ihr h2]
  | fn f e ih => simp only [Expr.rename, eval, ih (fun x hx => h x hx)]

theorem names_bin (op : BinOp) (l r : Expr V) (x : String) : x ∈ (Expr.bin op l r).names ↔ x ∈ l.names ∨ x ∈ r.names := by
  simp only [Expr.names, Expr.vars, Expr.pvars, List.mem_append, List.map_append]; tauto

theorem names_cmp (op : CmpOp) (l r : Expr V) (x : String) : x ∈ (Expr.cmp op l r).names ↔ x ∈ l.names ∨ x ∈ r.names := by
  simp only [Expr.names, Expr.vars, Expr.pvars, List.mem_append, List.map_append]; tauto

theorem mem_map_inj (hi : InjOn φ N) {s : List String} (hs : ∀ x ∈ s, N x) {x : String} (hx : N x) :
    φ x ∈ s.map φ ↔ x ∈ s := by
  simp only [List.mem_map]
  constructor
  · rintro ⟨y, hy, e⟩; rwa [← (hi y x (hs y hy) hx).mp e]
  · exact fun h => ⟨x, h, rfl⟩

theorem setAdd_rename (hi : InjOn φ N) {s : List String} (hs : ∀ x ∈ s, N x) {x : String} (hx : N x) :
    setAdd (s.map φ) (φ x) = (setAdd s x).map φ ∧ ∀ y ∈ setAdd s x, N y := by
  unfold setAdd
  simp only [mem_map_inj hi hs hx]
  split
  · exact ⟨rfl, hs⟩
  · refine ⟨by simp, fun y hy => ?_⟩
    rcases List.mem_append.mp hy with h | h
    · exact hs y h
    · simp only [List.mem_singleton] at h; rw [h]; exact hx

theorem locate_rename (hi : InjOn φ N) (e : Expr V) (he : ∀ x ∈ e.names, N x) : ∀ s : List String, (∀ x ∈ s, N x) →
    SameOutcome (fun a b => b = a.map φ ∧ ∀ x ∈ a, N x) (locate e s) (locate (e.rename φ) (s.map φ)) := by
  induction e with
  | num => exact fun s hs => .ok ⟨rfl, hs⟩
  | var x =>
    intro s hs
    exact .ok (setAdd_rename hi hs (he x (by simp [Expr.names, Expr.vars])))
  | pvar => exact fun s hs => .error
  | cmp => exact fun s hs => .error
  | un op e ih => exact ih he
  | fn f e ih => exact ih he
  | bin op l r ihl ihr =>
    intro s hs
    refine (ihl (fun x hx => he x ((names_bin op l r x).mpr (.inl hx))) s hs).bind fun a b _ _ h => ?_
    rw [h.1]
    exact ihr (fun x hx => he x ((names_bin op l r x).mpr (.inr hx))) a h.2

theorem rhsOf_rename (hi : InjOn φ N) (d : Def V) (hd : ∀ x ∈ d.names, N x) :
    SameOutcome (fun a b => b = a.map φ ∧ ∀ x ∈ a, N x) (rhsOf d) (rhsOf (d.rename φ)) := by
  cases d with
  | num => exact .ok ⟨rfl, by simp⟩
  | ast e => exact locate_rename hi e hd [] (by simp)

/-- a table of names, in other names -/
def RhsIn (N : String → Prop) (d : Dict (List String)) : Prop := ∀ p ∈ d, N p.1 ∧ ∀ x ∈ p.2, N x

theorem rhsVars_rename (hi : InjOn φ N) : ∀ (d : Dict (Def V)), DefsIn N d →
    SameOutcome (fun a b => b = a.rename φ (List.map φ) ∧ RhsIn N a) (rhsVars d) (rhsVars (d.rename φ (Def.rename φ)))
  | [], _ => .ok ⟨rfl, fun p hp => by simp at hp⟩
  | (k, x) :: d, h => by
    have h1 := h (k, x) (by simp)
    refine (rhsOf_rename hi x h1.2).bind fun a b _ _ hab => ?_
    refine (rhsVars_rename hi d fun p hp => h p (by simp [hp])).bind fun r r' _ _ hr => ?_
    refine .ok ⟨by rw [hab.1, hr.1]; rfl, fun p hp => ?_⟩
    rcases List.mem_cons.mp hp with rfl | hp
    · exact ⟨h1.1, hab.2⟩
    · exact hr.2 p hp

theorem RhsIn.keys {d : Dict (List String)} (h : RhsIn N d) : ∀ x ∈ d.keys, N x := by
  intro x hx
  obtain ⟨p, hp, rfl⟩ := List.mem_map.mp hx
  exact (h p hp).1

theorem lookupAll_rename (hi : InjOn φ N) {d : Dict Nat} (hd : ∀ x ∈ d.keys, N x) : ∀ xs : List String, (∀ x ∈ xs, N x) →
    lookupAll (d.rename φ id) (xs.map φ) = lookupAll d xs
  | [], _ => rfl
  | x :: xs, h => by
    simp only [List.map_cons, lookupAll, Dict.get?_rename hi id hd (h x (by simp)), Option.map_id_fun, id,
      lookupAll_rename hi hd xs (fun y hy => h y (by simp [hy]))]

/-- the state of the search for an order, in other names -/
def RenPrec (φ : String → String) (N : String → Prop) (a b : Dict Nat × Nat) : Prop :=
  b = (a.1.rename φ id, a.2) ∧ ∀ x ∈ a.1.keys, N x

theorem stepPrec_rename (hi : InjOn φ N) {st : Dict Nat × Nat} (hs : ∀ x ∈ st.1.keys, N x) {k : String} (hk : N k)
    {r : List String} (hr : ∀ x ∈ r, N x) :
    SameOutcome (RenPrec φ N) (stepPrec st k r) (stepPrec (st.1.rename φ id, st.2) (φ k) (r.map φ)) := by
  unfold stepPrec
  rw [Dict.get?_rename hi id hs hk, Option.map_id]
  show SameOutcome _ (match st.1.get? k with | none => _ | some p => _) (match st.1.get? k with | none => _ | some p => _)
  cases st.1.get? k with
  | none => exact .error
  | some p =>
    by_cases hp : p = 0
    · simp only [hp, if_true, lookupAll_rename hi hs r hr]
      cases lookupAll st.1 r with
      | error => exact .error
      | ok ns =>
        simp only [exc_bind]
        split
        · exact .ok ⟨by rw [Dict.set_rename hi id hs hk]; rfl, keys_set_in hs hk _⟩
        · exact .ok ⟨rfl, hs⟩
    · simp only [hp, if_false]; exact .ok ⟨rfl, hs⟩

theorem passPrec_rename (hi : InjOn φ N) : ∀ (d : Dict (List String)), RhsIn N d → ∀ st st' : Dict Nat × Nat,
    RenPrec φ N st st' → SameOutcome (RenPrec φ N) (passPrec st d) (passPrec st' (d.rename φ (List.map φ)))
  | [], _, st, st', h => .ok h
  | (k, r) :: d, hd, st, st', h => by
    have h1 := hd (k, r) (by simp)
    rw [h.1]
    exact (stepPrec_rename hi h.2 h1.1 h1.2).bind fun a b _ _ hab =>
      passPrec_rename hi d (fun p hp => hd p (by simp [hp])) a b hab

theorem loopPrec_rename (hi : InjOn φ N) {d : Dict (List String)} (hd : RhsIn N d) : ∀ (n : Nat) (st st' : Dict Nat × Nat),
    RenPrec φ N st st' → SameOutcome (RenPrec φ N) (loopPrec d n st) (loopPrec (d.rename φ (List.map φ)) n st')
  | 0, st, st', h => .ok h
  | n + 1, st, st', h => by
    have e : st'.2 = st.2 := by rw [h.1]
    simp only [loopPrec, e]
    split
    · exact (passPrec_rename hi d hd st st' h).bind fun a b _ _ hab => loopPrec_rename hi hd n a b hab
    · exact .ok h

theorem orderPrecedence_rename (hi : InjOn φ N) {d : Dict (List String)} (hd : RhsIn N d) :
    SameOutcome (fun a b => b = a.map φ ∧ ∀ x ∈ a, N x) (orderPrecedence d)
      (orderPrecedence (d.rename φ (List.map φ))) := by
  have e0 : initPrec (d.rename φ (List.map φ)) = (initPrec d).rename φ id := by
    simp [initPrec, Dict.rename, Function.comp_def]
  have e1 : ∀ p : Dict Nat, (p.rename φ id).map Prod.snd = p.map Prod.snd := by
    intro p; simp [Dict.rename, Function.comp_def]
  have e2 : ∀ p : Dict Nat, (p.rename φ id).length = p.length := by intro p; simp [Dict.rename]
  have hk : ∀ x ∈ (initPrec d).keys, N x := by
    intro x hx
    have : x ∈ d.keys := by simpa [initPrec, Dict.keys, Function.comp_def] using hx
    exact hd.keys x this
  unfold orderPrecedence
  simp only [e0, e1, e2]
  refine (loopPrec_rename hi hd _ _ _ ⟨rfl, hk⟩).bind fun a b _ _ hab => ?_
  rw [hab.1]
  simp only [e1]
  split
  · exact .error
  · refine .ok ⟨?_, fun x hx => hab.2 x ((List.mem_insertionSort _).mp hx)⟩
    rw [Dict.keys_rename]
    refine (List.map_insertionSort _ _ _ _ fun x hx y hy => ?_).symm
    simp only [precOf, Dict.get?_rename hi id hab.2 (hab.2 x hx), Dict.get?_rename hi id hab.2 (hab.2 y hy), Option.map_id,
      id]

theorem DefsIn.keys {d : Dict (Def V)} (h : DefsIn N d) : ∀ x ∈ d.keys, N x := by
  intro x hx
  obtain ⟨p, hp, rfl⟩ := List.mem_map.mp hx
  exact (h p hp).1

theorem DefsIn.set {d : Dict (Def V)} (h : DefsIn N d) {k : String} (hk : N k) {x : Def V} (hx : ∀ y ∈ x.names, N y) :
    DefsIn N (d.set k x) := by
  induction d with
  | nil => intro p hp; simp only [Dict.set, List.mem_singleton] at hp; subst hp; exact ⟨hk, hx⟩
  | cons q d ih =>
    obtain ⟨j, w⟩ := q
    have hq := h (j, w) (by simp)
    have ih := ih fun p hp => h p (by simp [hp])
    intro p hp
    simp only [Dict.set] at hp
    split at hp
    · rcases List.mem_cons.mp hp with rfl | hp
      · exact ⟨hq.1, hx⟩
      · exact h p (by simp [hp])
    · rcases List.mem_cons.mp hp with rfl | hp
      · exact hq
      · exact ih p hp

theorem evalParam_rename (hi : InjOn φ N) {ops : Ops V} {c : Dict (Def V)} (hc : ∀ x ∈ c.keys, N x) {d : Def V}
    (hd : ∀ x ∈ d.names, N x) :
    evalParam ops (c.rename φ (Def.rename φ)) (d.rename φ) = evalParam ops c d := by
  cases d with
  | num => rfl
  | ast e =>
    refine eval_rename fun x hx => ?_
    unfold calibScope
    rw [Dict.get?_rename hi _ hc (hd x hx)]
    cases c.get? x with
    | none => rfl
    | some y => cases y <;> rfl

theorem fillCalib_rename (hi : InjOn φ N) {ops : Ops V} : ∀ (ks : List String), (∀ x ∈ ks, N x) → ∀ c : Dict (Def V),
    DefsIn N c → SameOutcome (fun a b => b = a.rename φ (Def.rename φ) ∧ DefsIn N a) (fillCalib ops ks c)
      (fillCalib ops (ks.map φ) (c.rename φ (Def.rename φ)))
  | [], _, c, hc => .ok ⟨rfl, hc⟩
  | k :: ks, hk, c, hc => by
    simp only [List.map_cons, fillCalib, Dict.get?_rename hi _ hc.keys (hk k (by simp))]
    cases hg : c.get? k with
    | none => exact .error
    | some d =>
      have hd : ∀ x ∈ d.names, N x := (hc (k, d) (Dict.mem_of_get? hg)).2
      simp only [Option.map_some, evalParam_rename hi hc.keys hd]
      cases evalParam ops c d with
      | error => exact .error
      | ok v =>
        simp only [exc_bind]
        have := fillCalib_rename hi (ops := ops) ks (fun x hx => hk x (by simp [hx])) (c.set k (.num v))
          (hc.set (hk k (by simp)) (by simp [Def.names]))
        rw [Dict.set_rename hi _ hc.keys (hk k (by simp))] at this
        exact this

theorem solveCalibration_rename (hi : InjOn φ N) {ops : Ops V} {d : Dict (Def V)} (hd : DefsIn N d) :
    SameOutcome (fun a b => b = a.rename φ (Def.rename φ) ∧ DefsIn N a) (solveCalibration ops d)
      (solveCalibration ops (d.rename φ (Def.rename φ))) := by
  unfold solveCalibration
  refine (rhsVars_rename hi d hd).bind fun a b _ _ hab => ?_
  rw [hab.1]
  refine (orderPrecedence_rename hi hab.2).bind fun o o' _ _ ho => ?_
  rw [ho.1]
  exact fillCalib_rename hi o ho.2 d hd

/-- a calibration in other names -/
def RenCalib (φ : String → String) (N : String → Prop) (c c' : Calibration V) : Prop :=
  c' = c.rename φ ∧ DefsIn N c.defs ∧ DefsIn N c.calib

theorem calibration_create_rename (hi : InjOn φ N) {ops : Ops V} {d : Dict (Def V)} (hd : DefsIn N d) :
    SameOutcome (RenCalib φ N) (Calibration.create ops d) (Calibration.create ops (d.rename φ (Def.rename φ))) := by
  unfold Calibration.create
  refine (solveCalibration_rename hi hd).bind fun a b _ _ hab => ?_
  exact .ok ⟨by rw [hab.1]; rfl, hd, hab.2⟩

theorem Calibration.val_rename (hi : InjOn φ N) {c c' : Calibration V} (h : RenCalib φ N c c') {x : String} (hx : N x) :
    c'.val (φ x) = c.val x := by
  rw [h.1]
  unfold Calibration.val
  show (match (c.calib.rename φ (Def.rename φ)).get? (φ x) with | some (.num v) => some v | _ => none) = _
  rw [Dict.get?_rename hi _ h.2.2.keys hx]
  cases c.calib.get? x with
  | none => rfl
  | some y => cases y <;> rfl

theorem scopeOf_rename (hi : InjOn φ N) {p p' l l' : Calibration V} (hp : RenCalib φ N p p') (hl : RenCalib φ N l l')
    {x : String} (hx : N x) : scopeOf p' l' (φ x) = scopeOf p l x := by
  unfold scopeOf
  rw [Calibration.val_rename hi hp hx, Calibration.val_rename hi hl hx]

theorem setItem_rename (hi : InjOn φ N) {ops : Ops V} {c c' : Calibration V} (h : RenCalib φ N c c') {k : String}
    (hk : N k) {d : Def V} (hd : ∀ x ∈ d.names, N x) :
    RenCalib φ N (c.setItem ops k d).1 (c'.setItem ops (φ k) (d.rename φ)).1 ∧
    (c'.setItem ops (φ k) (d.rename φ)).2 = (c.setItem ops k d).2 := by
  obtain ⟨rfl, h2, h3⟩ := h
  have hs := h2.set hk hd
  have := solveCalibration_rename hi (ops := ops) hs
  rw [Dict.set_rename hi _ h2.keys hk] at this
  unfold Calibration.setItem
  show RenCalib φ N (match solveCalibration ops (c.defs.set k d) with | .ok _ => _ | .error _ => _ : _ × Option Err).1
    (match solveCalibration ops (Dict.set (Dict.rename φ (Def.rename φ) c.defs) (φ k) (d.rename φ)) with
      | .ok _ => _ | .error _ => _ : _ × Option Err).1 ∧ _
  simp only [Calibration.rename]
  revert this
  generalize solveCalibration ops (c.defs.set k d) = x
  generalize solveCalibration ops (Dict.set (Dict.rename φ (Def.rename φ) c.defs) (φ k) (d.rename φ)) = y
  intro this
  cases this with
  | error => exact ⟨⟨by simp only [Calibration.rename, Dict.set_rename hi _ h2.keys hk], hs, h3⟩, rfl⟩
  | ok h => exact ⟨⟨by rw [h.1]; simp only [Calibration.rename, Dict.set_rename hi _ h2.keys hk], hs, h.2⟩, rfl⟩

theorem paramLoop_rename (hi : InjOn φ N) {ops : Ops V} : ∀ (kvs : List (String × Def V)), DefsIn N kvs →
    ∀ c c' : Calibration V, RenCalib φ N c c' →
    RenCalib φ N (paramLoop ops kvs c).1 (paramLoop ops (Dict.rename φ (Def.rename φ) kvs) c').1 ∧
    (paramLoop ops (Dict.rename φ (Def.rename φ) kvs) c').2 = (paramLoop ops kvs c).2
  | [], _, c, c', h => ⟨h, rfl⟩
  | (k, d) :: kvs, hk, c, c', h => by
    have h1 := hk (k, d) (by simp)
    obtain ⟨h2, h3⟩ := setItem_rename hi (ops := ops) h h1.1 h1.2
    show RenCalib φ N (match c.setItem ops k d with | (c', none) => _ | (c', some e) => _ : _ × Option Err).1
      (match c'.setItem ops (φ k) (d.rename φ) with | (c', none) => _ | (c', some e) => _ : _ × Option Err).1 ∧
      (match c'.setItem ops (φ k) (d.rename φ) with | (c', none) => _ | (c', some e) => _ : _ × Option Err).2 =
      (match c.setItem ops k d with | (c', none) => _ | (c', some e) => _ : _ × Option Err).2
    revert h2 h3
    generalize c.setItem ops k d = x
    generalize c'.setItem ops (φ k) (d.rename φ) = y
    obtain ⟨x1, x2⟩ := x
    obtain ⟨y1, y2⟩ := y
    intro h2 h3
    simp only at h2 h3
    subst h3
    cases y2 with
    | none => exact paramLoop_rename hi kvs (fun p hp => hk p (by simp [hp])) x1 y1 h2
    | some e => exact ⟨h2, rfl⟩

end Pynare
