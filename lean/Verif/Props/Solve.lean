import Verif.Model.Solve
/-!
# Properties of the solution that a model keeps
-/

namespace Pynare

section
variable {D F S O K A C : Type} {env : Solvers D F S O K A C}

/-! ### what each request does to the solution -/

theorem solveFirst_ok {m m' : Holder D F S O K} {f : F} (h : m.solveFirst env = (m', .ok f)) :
    env.first m.defn = .ok f ∧ m' = { m with slot := some (.first f) } := by
  unfold Holder.solveFirst at h
  split at h
  · rename_i hf
    cases h
    exact ⟨hf, rfl⟩
  · cases h

theorem solveFirst_error {m m' : Holder D F S O K} {e : Err} (h : m.solveFirst env = (m', .error e)) :
    env.first m.defn = .error e ∧ m' = m := by
  unfold Holder.solveFirst at h
  split at h <;> simp_all

/-- A solution made from the definition `d` of a model. -/
inductive Sol.MadeFrom (env : Solvers D F S O K A C) (d : D) : Sol F S O → Prop
  | first {f} : env.first d = .ok f → MadeFrom env d (.first f)
  | second {f s} : env.first d = .ok f → env.second d f = .ok s → MadeFrom env d (.second f s)

theorem solveSecond_ok {m m' : Holder D F S O K} {s : Sol F S O} (h : m.solveSecond env = (m', .ok s)) :
    (∃ f t, s = .second f t) ∧ s.MadeFrom env m.defn ∧ m' = { m with slot := some s } := by
  unfold Holder.solveSecond at h
  split at h
  · cases h
  · rename_i m1 f h1
    obtain ⟨hf, rfl⟩ := solveFirst_ok h1
    split at h
    · rename_i s hs
      cases h
      exact ⟨⟨_, _, rfl⟩, .second hf hs, rfl⟩
    · cases h

theorem solveSecond_error {m m' : Holder D F S O K} {e : Err} (h : m.solveSecond env = (m', .error e)) :
    (m' = m ∧ env.first m.defn = .error e) ∨
    ∃ f, env.first m.defn = .ok f ∧ env.second m.defn f = .error e ∧ m' = { m with slot := some (.first f) } := by
  unfold Holder.solveSecond at h
  split at h
  · rename_i m1 e1 h1
    obtain ⟨he, rfl⟩ := solveFirst_error h1
    cases h
    exact .inl ⟨rfl, he⟩
  · rename_i m1 f h1
    obtain ⟨hf, rfl⟩ := solveFirst_ok h1
    split at h
    · cases h
    · rename_i e' he
      cases h
      exact .inr ⟨f, hf, he, rfl⟩

theorem holdSolve_cases (o : Int) (m : Holder D F S O K) :
    (o = 1 ∧ m.solve env o = ((m.solveFirst env).1, (m.solveFirst env).2.map .first)) ∨
    ((o = 0 ∨ o = 2) ∧ m.solve env o = m.solveSecond env) ∨
    (¬ (o = 0 ∨ o = 1 ∨ o = 2) ∧ m.solve env o = (m, .error .valueError)) := by
  unfold Holder.solve
  by_cases h0 : o = 0
  · exact .inr (.inl ⟨.inl h0, by simp [h0]⟩)
  · by_cases h1 : o = 1
    · refine .inl ⟨h1, ?_⟩
      rcases h : m.solveFirst env with ⟨m', e | f⟩ <;> simp [h1, h, Except.map]
    · by_cases h2 : o = 2
      · exact .inr (.inl ⟨.inr h2, by simp [h2]⟩)
      · exact .inr (.inr ⟨by simp [h0, h1, h2], by simp [h0, h1, h2]⟩)

theorem holdSolve_ok {o : Int} {m m' : Holder D F S O K} {s : Sol F S O} (h : m.solve env o = (m', .ok s)) :
    s.MadeFrom env m.defn ∧ m' = { m with slot := some s } := by
  rcases holdSolve_cases (env := env) o m with ⟨-, h'⟩ | ⟨-, h'⟩ | ⟨-, h'⟩
  · rw [h'] at h
    rcases hf : m.solveFirst env with ⟨m1, e | f⟩ <;> rw [hf] at h <;> cases h
    obtain ⟨hf', rfl⟩ := solveFirst_ok hf
    exact ⟨.first hf', rfl⟩
  · rw [h'] at h
    exact (solveSecond_ok h).2
  · rw [h'] at h
    cases h

theorem holdSolve_error {o : Int} {m m' : Holder D F S O K} {e : Err} (h : m.solve env o = (m', .error e)) :
    m' = m ∨ (o = 0 ∨ o = 2) ∧
      ∃ f, env.first m.defn = .ok f ∧ env.second m.defn f = .error e ∧ m' = { m with slot := some (.first f) } := by
  rcases holdSolve_cases (env := env) o m with ⟨-, h'⟩ | ⟨ho, h'⟩ | ⟨-, h'⟩
  · rw [h'] at h
    rcases hf : m.solveFirst env with ⟨m1, e | f⟩ <;> rw [hf] at h <;> cases h
    exact .inl (solveFirst_error hf).2
  · rw [h'] at h
    rcases solveSecond_error h with ⟨rfl, -⟩ | hs
    · exact .inl rfl
    · exact .inr ⟨ho, hs⟩
  · rw [h'] at h
    cases h
    exact .inl rfl

theorem solution_some {m : Holder D F S O K} {s : Sol F S O} (h : m.slot = some s) : m.solution env = (m, .ok s) := by
  simp [Holder.solution, h]

/-- Conditions under which a predicate of models is kept by every request that does not alter the definition. -/
structure Stays (env : Solvers D F S O K A C) (P : Holder D F S O K → Prop) : Prop where
  made : ∀ m s, P m → s.MadeFrom env m.defn → P { m with slot := some s }
  bound : ∀ m o, P m → P { m with slot := some (.binding o) }
  fresh : ∀ m, P m → P { m with trans := none }
  trans : ∀ m s f k, P m → m.slot = some s → s.lower = .ok f → env.kalman m.defn f = .ok k →
    P { m with trans := some k }

namespace Stays
variable {P : Holder D F S O K → Prop} (hP : Stays env P)
include hP

theorem solveFirst (m : Holder D F S O K) (h : P m) : P (m.solveFirst env).1 := by
  rcases hf : m.solveFirst env with ⟨m', e | f⟩
  · obtain ⟨-, rfl⟩ := solveFirst_error hf
    exact h
  · obtain ⟨hf', rfl⟩ := solveFirst_ok hf
    exact hP.made m _ h (.first hf')

theorem solve (m : Holder D F S O K) (o : Int) (h : P m) : P (m.solve env o).1 := by
  rcases hs : m.solve env o with ⟨m', e | s⟩
  · rcases holdSolve_error hs with rfl | ⟨-, f, hf, -, rfl⟩
    · exact h
    · exact hP.made m _ h (.first hf)
  · obtain ⟨hs', rfl⟩ := holdSolve_ok hs
    exact hP.made m _ h hs'

theorem solution (m : Holder D F S O K) (h : P m) : P (m.solution env).1 := by
  unfold Holder.solution
  split
  · exact h
  · exact hP.solve m 2 h

omit hP in
theorem solution_slot {m m' : Holder D F S O K} {s : Sol F S O} (h : m.solution env = (m', .ok s)) :
    m'.slot = some s := by
  unfold Holder.solution at h
  split at h
  · cases h
    assumption
  · obtain ⟨-, rfl⟩ := holdSolve_ok h
    rfl

omit hP in
theorem firstOrder_slot {m m' : Holder D F S O K} {f : F} (h : m.firstOrder env = (m', .ok f)) :
    ∃ s, m'.slot = some s ∧ s.lower = .ok f := by
  unfold Holder.firstOrder at h
  split at h
  · rename_i m1 s hs
    obtain ⟨rfl, hl⟩ := Prod.mk.inj h
    exact ⟨s, solution_slot hs, hl⟩
  · cases h

theorem firstOrder (m : Holder D F S O K) (h : P m) : P (m.firstOrder env).1 := by
  have := hP.solution m h
  unfold Holder.firstOrder
  split <;> simp_all

theorem transition (m : Holder D F S O K) (h : P m) : P (m.transition env).1 := by
  have h1 := hP.firstOrder m h
  unfold Holder.transition
  split
  · exact h
  · split
    · simp_all
    · rename_i hf
      obtain ⟨s, s1, s2⟩ := firstOrder_slot hf
      rw [hf] at h1
      split
      · exact h1
      · exact hP.trans _ _ _ _ h1 s1 s2 ‹_›

theorem ensureOrder (m : Holder D F S O K) (h : P m) : P (m.ensureOrder env).1 := by
  have := hP.solve m 0 h
  unfold Holder.ensureOrder
  split
  · exact h
  · split <;> simp_all

theorem refFirst (m : Holder D F S O K) (x d') (h : P m) : P (m.refFirst env x d').1 := by
  unfold Holder.refFirst
  split
  · exact h
  · split
    · exact h
    · exact h
    · exact hP.solveFirst m h

theorem solveBinding (m : Holder D F S O K) (c : BindArgs C) (h : P m) : P (m.solveBinding env c).1 := by
  unfold Holder.solveBinding
  split
  · exact h
  · split
    · exact h
    · rename_i d' _ _ _ _
      have h1 := hP.refFirst m c.exprs d' h
      split
      · simp_all
      · rename_i hr
        rw [hr] at h1
        split
        · exact h1
        · split
          · exact h1
          · exact hP.bound _ _ h1

theorem moments (m : Holder D F S O K) (h : P m) : P (m.moments env).1 := by
  have h1 := hP.ensureOrder m h
  unfold Holder.moments
  split
  · simp_all
  · rename_i m' _ he
    rw [he] at h1
    have h2 := hP.firstOrder m' h1
    split
    · simp_all
    · rename_i m'' _ hf
      rw [hf] at h2
      have h3 := hP.transition m'' h2
      split <;> simp_all

theorem mean (m : Holder D F S O K) (h : P m) : P (m.mean env).1 := by
  have h1 := hP.ensureOrder m h
  unfold Holder.mean
  split
  · exact h
  · split
    · simp_all
    · rename_i m' _ he
      rw [he] at h1
      have h2 := hP.transition m' h1
      split
      · exact h1
      · split <;> simp_all
      · exact h1

theorem simSolution (m : Holder D F S O K) (o : Int) (h : P m) : P (m.simSolution env o).1 := by
  unfold Holder.simSolution
  split
  · exact hP.solve m o h
  · split
    · exact h
    · exact hP.solve m 0 h

theorem simulate (m : Holder D F S O K) (o : Int) (h : P m) : P (m.simulate env o).1 := by
  have h1 := hP.simSolution m o h
  unfold Holder.simulate
  split
  · simp_all
  · simp_all
  · rename_i hs
    rw [hs] at h1
    exact hP.fresh _ h1

theorem step (m : Holder D F S O K) (r : Ask D C) (hr : ∀ d, r ≠ .alter d) (h : P m) : P (m.step env r) := by
  cases r with
  | alter d => exact absurd rfl (hr d)
  | solve o => exact hP.solve m o h
  | solveBinding c => exact hP.solveBinding m c h
  | solution => exact hP.solution m h
  | firstOrder => exact hP.firstOrder m h
  | transition => exact hP.transition m h
  | mean => exact hP.mean m h
  | moments => exact hP.moments m h
  | simulate o => exact hP.simulate m o h

theorem run (m : Holder D F S O K) (rs : List (Ask D C)) (hr : ∀ r ∈ rs, ∀ d, r ≠ .alter d) (h : P m) :
    P (m.run env rs) := by
  induction rs generalizing m with
  | nil => exact h
  | cons r rs ih => exact ih _ (fun r hr' => hr r (by simp [hr'])) (hP.step m r (hr r (by simp)) h)

end Stays

/-! ### C101: what is kept -/

/-- **C101**, partial.  The property says that a solution that `solve` returns is the one the model has afterwards, and
that a call that raises leaves the solution that was there.  The first part holds. -/
theorem C101_kept_partial {m m' : Holder D F S O K} {s : Sol F S O}
    (h : (∃ o, m.solve env o = (m', .ok s)) ∨ ∃ c, m.solveBinding env c = (m', .ok s)) :
    m'.solution env = (m', .ok s) ∧ m'.order = s.order := by
  have key : m'.slot = some s := by
    rcases h with ⟨o, h⟩ | ⟨c, h⟩
    · obtain ⟨-, rfl⟩ := holdSolve_ok h
      rfl
    · unfold Holder.solveBinding at h
      split at h
      · cases h
      · split at h
        · cases h
        · split at h
          · cases h
          · split at h
            · cases h
            · split at h
              · cases h
              · cases h
                rfl
  exact ⟨solution_some key, by simp [Holder.order, key]⟩

/-- **C101**, partial: a call that raises leaves the model as it was, or with the first-order solution of its present
definition. -/
theorem C101_failed_partial {m m' : Holder D F S O K} {e : Err}
    (h : (∃ o, m.solve env o = (m', .error e)) ∨ ∃ c, m.solveBinding env c = (m', .error e)) :
    m' = m ∨ ∃ f, env.first m.defn = .ok f ∧ m' = { m with slot := some (.first f) } := by
  rcases h with ⟨o, h⟩ | ⟨c, h⟩
  · rcases holdSolve_error h with rfl | ⟨-, f, hf, -, rfl⟩
    · exact .inl rfl
    · exact .inr ⟨f, hf, rfl⟩
  · have href : ∀ {x d' m1 r}, m.refFirst env x d' = (m1, r) →
        m1 = m ∨ ∃ f, env.first m.defn = .ok f ∧ m1 = { m with slot := some (.first f) } := by
      intro x d' m1 r h
      unfold Holder.refFirst at h
      split at h
      · cases h; exact .inl rfl
      · split at h
        · cases h; exact .inl rfl
        · cases h; exact .inl rfl
        · cases r with
          | error e => exact .inl (solveFirst_error h).2
          | ok f => exact .inr ⟨f, solveFirst_ok h⟩
    unfold Holder.solveBinding at h
    split at h
    · cases h; exact .inl rfl
    · split at h
      · cases h; exact .inl rfl
      · split at h
        · rename_i hr
          cases h
          exact href hr
        · rename_i hr
          split at h
          · cases h
            exact href hr
          · split at h
            · cases h
              exact href hr
            · cases h

/-- **C101**, partial: at first order, and with an order that is not known, a call that raises changes nothing. -/
theorem C101_unchanged_partial {m m' : Holder D F S O K} {o : Int} {e : Err} (ho : o ≠ 0 ∧ o ≠ 2)
    (h : m.solve env o = (m', .error e)) : m' = m := by
  rcases holdSolve_error h with rfl | ⟨h', -⟩
  · rfl
  · exact absurd h' (by simp [ho])

/-! ### C102: reading -/

/-- Requests that only read results. -/
def Ask.Reads : Ask D C → Prop
  | .solution | .firstOrder | .transition | .mean | .moments => True
  | .simulate o => o = 0
  | _ => False

theorem lower_of_order {s : Sol F S O} {n : Nat} (h : s.order = some n) : ∃ f, s.lower = .ok f := by
  cases s with
  | first f => exact ⟨f, rfl⟩
  | second f _ => exact ⟨f, rfl⟩
  | binding o => cases h

theorem firstOrder_some {m : Holder D F S O K} {s : Sol F S O} (h : m.slot = some s) :
    m.firstOrder env = (m, s.lower) := by
  simp [Holder.firstOrder, solution_some h]

theorem transition_some {m : Holder D F S O K} {s : Sol F S O} (h : m.slot = some s) :
    (m.transition env).1.slot = some s ∧ (m.transition env).1.defn = m.defn := by
  unfold Holder.transition
  rw [firstOrder_some h]
  split
  · exact ⟨h, rfl⟩
  · split
    · rename_i h'; obtain ⟨rfl, -⟩ := Prod.mk.inj h'; exact ⟨h, rfl⟩
    · rename_i h'
      obtain ⟨rfl, -⟩ := Prod.mk.inj h'
      split
      · exact ⟨h, rfl⟩
      · exact ⟨h, rfl⟩

theorem ensureOrder_some {m : Holder D F S O K} {s : Sol F S O} {n : Nat} (h : m.slot = some s) (hn : s.order = some n) :
    m.ensureOrder env = (m, .ok ()) := by
  simp [Holder.ensureOrder, Holder.order, h, hn]

/-- **C102**, partial.  The property says that reading results (the solution, moments, simulations without an order)
does not change the solution that a model has.  It does not if that solution has an order. -/
theorem C102_linear_partial {m : Holder D F S O K} {s : Sol F S O} (h : m.slot = some s) {n : Nat} (hn : s.order = some n)
    (rs : List (Ask D C)) (hr : ∀ r ∈ rs, r.Reads) : (m.run env rs).solution env = (m.run env rs, .ok s) := by
  refine solution_some ?_
  induction rs generalizing m with
  | nil => exact h
  | cons r rs ih =>
    refine ih ?_ fun r hr' => hr r (by simp [hr'])
    have hr := hr r (by simp)
    cases r with
    | alter d => exact hr.elim
    | solve o => exact hr.elim
    | solveBinding c => exact hr.elim
    | solution => show (m.solution env).1.slot = _; rw [solution_some h]; exact h
    | firstOrder => show (m.firstOrder env).1.slot = _; rw [firstOrder_some h]; exact h
    | transition => exact (transition_some h).1
    | mean =>
      show (m.mean env).1.slot = _
      unfold Holder.mean
      rw [ensureOrder_some h hn]
      split
      · exact h
      · split
        · rename_i h'; cases h'
        · rename_i h'
          cases h'
          have ht := (transition_some (env := env) h).1
          split
          · exact h
          · split <;> simp_all
          · exact h
    | moments =>
      show (m.moments env).1.slot = _
      unfold Holder.moments
      have ht := (transition_some (env := env) h).1
      obtain ⟨f, hf⟩ := lower_of_order hn
      simp only [ensureOrder_some h hn, firstOrder_some h, hf]
      split <;> simp_all
    | simulate o =>
      show (m.simulate env o).1.slot = _
      cases (show o = 0 from hr)
      have : m.simSolution env 0 = (m, .ok s) := by simp [Holder.simSolution, h]
      unfold Holder.simulate
      rw [this]
      cases s <;> exact h

/-! ### C103: the parts of a second-order solution -/

/-- the definitions a model has had -/
def definitions (d : D) : List (Ask D C) → List D
  | [] => [d]
  | .alter d' :: rs => d :: definitions d' rs
  | _ :: rs => definitions d rs

theorem mem_definitions (d : D) (rs : List (Ask D C)) : d ∈ definitions d rs := by
  induction rs with
  | nil => simp [definitions]
  | cons r rs ih => cases r <;> simp [definitions, ih]

/-- **C103.**  After any history of alterations, solutions, constrained solutions, statistics and simulations, with or
without exceptions on the way, both parts of a second-order solution that a model has were made from the same
definition, which is one the model has had; and so was a first-order solution. -/
theorem C103_same_definition (d0 : D) (rs : List (Ask D C)) {s : Sol F S O}
    (h : (Holder.run env { defn := d0 } rs).slot = some s) (hs : ∀ o, s ≠ .binding o) :
    ∃ d ∈ definitions d0 rs, s.MadeFrom env d := by
  have key : ∀ (rs : List (Ask D C)) (m : Holder D F S O K) (L : List D),
      (∀ s, m.slot = some s → (∃ o, s = .binding o) ∨ ∃ d ∈ L ++ definitions m.defn rs, s.MadeFrom env d) →
      ∀ s, (m.run env rs).slot = some s → (∃ o, s = .binding o) ∨ ∃ d ∈ L ++ definitions m.defn rs, s.MadeFrom env d := by
    intro rs
    induction rs with
    | nil => intro m L hm; exact hm
    | cons r rs ih =>
      intro m L hm
      by_cases hr : ∃ d, r = .alter d
      · obtain ⟨d, rfl⟩ := hr
        have := ih (m.alter d) (L ++ [m.defn]) (by simpa [Holder.alter, definitions] using hm)
        have hrun : m.run env (.alter d :: rs) = (m.alter d).run env rs := rfl
        rw [hrun]
        simpa [definitions, Holder.alter] using this
      · have hd : definitions m.defn (r :: rs) = definitions m.defn rs := by
          cases r <;> first | rfl | exact absurd ⟨_, rfl⟩ hr
        rw [hd] at hm ⊢
        have hP : Stays env fun m' : Holder D F S O K => m'.defn = m.defn ∧
            ∀ s, m'.slot = some s → (∃ o, s = .binding o) ∨ ∃ d ∈ L ++ definitions m.defn rs, s.MadeFrom env d := by
          constructor
          · intro m' s ⟨h1, h2⟩ hs
            refine ⟨h1, fun t ht => .inr ?_⟩
            cases ht
            exact ⟨m.defn, by simp [mem_definitions], h1 ▸ hs⟩
          · intro m' o ⟨h1, h2⟩
            exact ⟨h1, fun t ht => .inl ⟨o, (Option.some.inj ht).symm⟩⟩
          · exact fun m' h => h
          · exact fun m' s f k h _ _ _ => h
        obtain ⟨h1, h2⟩ := hP.step m r (by simpa using hr) ⟨rfl, hm⟩
        have := ih (m.step env r) L (by rw [h1]; exact h2)
        rw [h1] at this
        exact this
  rcases key rs { defn := d0 } [] (by simp) s h with ⟨o, rfl⟩ | h
  · exact absurd rfl (hs o)
  · simpa using h

/-! ### C104: statistics do not depend on what was asked before -/

/-- What is kept was made from the definition `d`. -/
def Current (env : Solvers D F S O K A C) (d : D) (m : Holder D F S O K) : Prop :=
  m.defn = d ∧ (∀ s, m.slot = some s → (∃ o, s = .binding o) ∨ s.MadeFrom env d) ∧
    ∀ k, m.trans = some k → ∃ f, env.first d = .ok f ∧ env.kalman d f = .ok k

theorem madeFrom_lower {d : D} {s : Sol F S O} {f : F} (h : s.MadeFrom env d) (hf : s.lower = .ok f) :
    env.first d = .ok f := by
  cases h with
  | first h => cases hf; exact h
  | second h _ => cases hf; exact h

theorem current_lower {d : D} {m : Holder D F S O K} (h : Current env d m) {s f} (hs : m.slot = some s)
    (hf : s.lower = .ok f) : env.first d = .ok f := by
  rcases h.2.1 s hs with ⟨o, rfl⟩ | h
  · cases hf
  · exact madeFrom_lower h hf

theorem current_stays (d : D) : Stays env (Current (env := env) d) where
  made := by
    rintro m s ⟨h1, h2, h3⟩ hs
    exact ⟨h1, fun t ht => .inr (Option.some.inj ht ▸ h1 ▸ hs), h3⟩
  bound := by
    rintro m o ⟨h1, h2, h3⟩
    exact ⟨h1, fun t ht => .inl ⟨o, (Option.some.inj ht).symm⟩, h3⟩
  fresh := by
    rintro m ⟨h1, h2, h3⟩
    exact ⟨h1, h2, by simp⟩
  trans := by
    intro m s f k h hs hf hk
    have := current_lower h hs hf
    obtain ⟨h1, h2, h3⟩ := h
    refine ⟨h1, h2, fun k' hk' => ?_⟩
    cases hk'
    exact ⟨f, this, h1 ▸ hk⟩

theorem current_moments {d : D} {m m' : Holder D F S O K} (h : Current env d m) {a : A}
    (hm : m.moments env = (m', .ok a)) :
    ∃ f k, env.first d = .ok f ∧ env.kalman d f = .ok k ∧ env.moments d f k = .ok a := by
  unfold Holder.moments at hm
  have h1 := (current_stays d).ensureOrder m h
  split at hm
  · cases hm
  · rename_i m1 _ he
    rw [he] at h1
    have h2 := (current_stays d).firstOrder m1 h1
    split at hm
    · cases hm
    · rename_i m2 f hf
      rw [hf] at h2
      have h3 := (current_stays d).transition m2 h2
      obtain ⟨s, hs, hl⟩ := Stays.firstOrder_slot hf
      have hfd := current_lower h2 hs hl
      split at hm
      · cases hm
      · rename_i m3 k hk
        rw [hk] at h3
        obtain ⟨-, hm⟩ := Prod.mk.inj hm
        have hkk : ∃ f', env.first d = .ok f' ∧ env.kalman d f' = .ok k := by
          unfold Holder.transition at hk
          split at hk
          · cases hk
            exact h2.2.2 _ ‹_›
          · rw [firstOrder_some hs, hl] at hk
            dsimp only at hk
            split at hk
            · cases hk
            · cases hk
              exact ⟨f, hfd, h2.1 ▸ ‹_›⟩
        obtain ⟨f', e1, e2⟩ := hkk
        rw [hfd] at e1
        cases e1
        exact ⟨f, k, hfd, e2, h3.1 ▸ hm⟩

/-- **C104.**  As long as a model is not altered, the moments it reports do not depend on what was asked before: they
are those of its first-order solution. -/
theorem C104_history (d : D) (rs : List (Ask D C)) (hr : ∀ r ∈ rs, ∀ d, r ≠ .alter d) {m' : Holder D F S O K} {a : A}
    (h : (Holder.run env { defn := d } rs).moments env = (m', .ok a)) :
    ∃ f k, env.first d = .ok f ∧ env.kalman d f = .ok k ∧ env.moments d f k = .ok a :=
  current_moments ((current_stays d).run _ rs hr ⟨rfl, by simp, by simp⟩) h

/-! ### C105: the first-order solution -/

/-- **C105**, partial.  The property says that the first-order solution of a model that was solved can be read.  It can
exactly if the solution that the model has is not a constrained one. -/
theorem C105_readable_partial {m : Holder D F S O K} {s : Sol F S O} (h : m.slot = some s) :
    (∃ m' f, m.firstOrder env = (m', .ok f)) ↔ ∀ o, s ≠ .binding o := by
  rw [firstOrder_some h]
  cases s with
  | first f => simp [Sol.lower]
  | second f t => simp [Sol.lower]
  | binding o => simp [Sol.lower]

/-! ### C106: initial values of constrained solutions -/

/-- **C106** is false: a constrained solution with initial values is refused always. -/
theorem C106_refused (m : Holder D F S O K) (c : BindArgs C) (hc : c.init = true) :
    ∃ e, (m.solveBinding env c).2 = .error e := by
  unfold Holder.solveBinding
  split
  · exact ⟨_, rfl⟩
  · split
    · exact ⟨_, rfl⟩
    · split
      · exact ⟨_, rfl⟩
      · simp [hc]

/-- **C106**: in particular, a call that returns without initial values raises `TypeError` with them. -/
theorem C106_type_error {m m' : Holder D F S O K} {c : BindArgs C} {s : Sol F S O}
    (h : m.solveBinding env { c with init := false } = (m', .ok s)) :
    (m.solveBinding env { c with init := true }).2 = .error .typeError := by
  have hs : ∀ b, bindSetup env { c with init := b } m.defn = bindSetup env c m.defn := fun b => rfl
  unfold Holder.solveBinding at h ⊢
  rw [hs] at h ⊢
  split at h
  · cases h
  · split at h
    · cases h
    · split at h
      · cases h
      · rename_i h1 _ _ h2 _ _ _ h3
        simp [h1, h2, h3]

/-! ### C107: statistics after solving -/

/-- **C107**, partial.  The property says that the moments reported after a call of `solve` are those of the present
definition.  They are if no transition arrays are kept. -/
theorem C107_fresh_partial {m m' m'' : Holder D F S O K} {o : Int} {s : Sol F S O} (ht : m.trans = none)
    (h : m.solve env o = (m', .ok s)) {a : A} (hm : m'.moments env = (m'', .ok a)) :
    ∃ f k, env.first m.defn = .ok f ∧ env.kalman m.defn f = .ok k ∧ env.moments m.defn f k = .ok a := by
  obtain ⟨hs, rfl⟩ := holdSolve_ok h
  refine current_moments (d := m.defn) (m := { m with slot := some s }) ⟨rfl, fun t ht => .inr ?_, by simp [ht]⟩ hm
  cases ht
  exact hs

/-- **C107**, partial: so they are if the model is solved at once after it was altered, whatever happens in between the
solution and the question. -/
theorem C107_altered_partial {m m' m'' : Holder D F S O K} {o : Int} {d : D} {s : Sol F S O}
    (h : (m.alter d).solve env o = (m', .ok s)) (rs : List (Ask D C)) (hr : ∀ r ∈ rs, ∀ d, r ≠ .alter d) {a : A}
    (hm : (m'.run env rs).moments env = (m'', .ok a)) :
    ∃ f k, env.first d = .ok f ∧ env.kalman d f = .ok k ∧ env.moments d f k = .ok a := by
  obtain ⟨hs, rfl⟩ := holdSolve_ok h
  exact current_moments ((current_stays d).run _ rs hr
    ⟨rfl, fun t ht => .inr (Option.some.inj ht ▸ hs), by simp [Holder.alter]⟩) hm

/-! ### C108: the reference of a constrained solution -/

/-- **C108**, partial.  The property says that a constrained solution is computed with the first-order solution of the
present definition.  It is if the model has no solution with an order, or if several regimes are given (and then the
definition is that of a copy). -/
theorem C108_reference_partial {m m' : Holder D F S O K} {c : BindArgs C} {s : Sol F S O}
    (h : m.solveBinding env c = (m', .ok s)) (hm : c.exprs = .many ∨ m.order = none) :
    ∃ d' f o, (if c.exprs = .many then env.copyDef m.defn = .ok d' else d' = m.defn) ∧ env.first d' = .ok f ∧
      env.bind d' c.detail f = .ok o ∧ s = .binding o := by
  unfold Holder.solveBinding at h
  split at h
  · cases h
  · rename_i d' hd
    have hd' : (if c.exprs = .many then env.copyDef m.defn = .ok d' else d' = m.defn) := by
      unfold bindSetup at hd
      cases hc : c.exprs with
      | none =>
        simp only [hc] at hd
        cases h2 : env.constr c.detail <;> simp [h2, bind, Except.bind] at hd
      | one =>
        simp only [hc] at hd
        cases hsg : c.sigma <;> simp only [hsg] at hd
        · cases h1 : env.alts m.defn c.detail with
          | error e => simp [h1, bind, Except.bind] at hd
          | ok u =>
            cases h2 : env.constr c.detail with
            | error e => simp [h1, h2, bind, Except.bind] at hd
            | ok u => simp [h1, h2, bind, Except.bind] at hd; simp [hd]
        · simp [bind, Except.bind] at hd
      | many =>
        simp only [hc] at hd
        cases hsg : c.sigma <;> simp only [hsg] at hd
        · cases h0 : env.copyDef m.defn with
          | error e => simp [h0, bind, Except.bind] at hd
          | ok d1 =>
            cases h1 : env.alts m.defn c.detail with
            | error e => simp [h0, h1, bind, Except.bind] at hd
            | ok u =>
              cases h2 : env.constr c.detail with
              | error e => simp [h0, h1, h2, bind, Except.bind] at hd
              | ok u => simp [h0, h1, h2, bind, Except.bind] at hd; simp [hd]
        · simp [bind, Except.bind] at hd
    split at h
    · cases h
    · split at h
      · cases h
      · rename_i m1 f hf
        split at h
        · cases h
        · split at h
          · cases h
          · rename_i o ho
            obtain ⟨-, h⟩ := Prod.mk.inj h
            refine ⟨d', f, o, hd', ?_, ho, (Except.ok.inj h).symm⟩
            unfold Holder.refFirst at hf
            split at hf
            · exact (Prod.mk.inj hf).2
            · rename_i hx
              rw [if_neg hx] at hd'
              split at hf
              · rename_i h'; simp [Holder.order, h', Sol.order, hx] at hm
              · rename_i h'; simp [Holder.order, h', Sol.order, hx] at hm
              · rw [hd']
                exact (solveFirst_ok hf).1

end

/-! ### witnesses -/

/-- A family of models with a definition that is one number: the first-order solution is that number, the second-order
solution fails for odd definitions, transition arrays are the solution, and moments are the list of the definition and
of what they were made from. -/
def numEnv : Solvers Nat Nat Nat Nat Nat (List Nat) Unit where
  first d := .ok d
  second d f := if d % 2 = 0 then .ok (d + f) else .error .valueError
  copyDef d := .ok d
  alts _ _ := .ok ()
  constr _ := .ok ()
  args _ _ := .ok ()
  bind _ _ f := .ok f
  kalman _ f := .ok f
  rest d := .ok [d]
  mean2 d f s k := .ok [d, f, s, k]
  moments d f k := .ok [d, f, k]
  simul d _ := .ok [d]

/-- a request for a constrained solution with one alternative regime -/
def oneRegime : BindArgs Unit := { exprs := .one, detail := () }

/-- **C101** is false: after a constrained solution was made, a call of `solve` that raises leaves another solution. -/
theorem C101_false : ∃ m : Holder Nat Nat Nat Nat Nat, m.solution numEnv = (m, .ok (.binding 3)) ∧
    (m.solve numEnv 0).2 = .error .valueError ∧ ((m.solve numEnv 0).1.solution numEnv).2 = .ok (.first 3) :=
  ⟨{ defn := 3, slot := some (.binding 3) }, rfl, rfl, rfl⟩

/-- **C102** is false: moments replace a constrained solution. -/
theorem C102_false : ∃ m : Holder Nat Nat Nat Nat Nat,
    (Holder.solveBinding numEnv oneRegime { defn := 4 }) = (m, .ok (.binding 4)) ∧
    (m.moments numEnv).2 = .ok [4, 4, 4] ∧ ((m.moments numEnv).1.solution numEnv).2 = .ok (.second 4 8) :=
  ⟨{ defn := 4, slot := some (.binding 4) }, rfl, rfl, rfl⟩

/-- **C105** is false after a constrained solution. -/
theorem C105_false : ((Holder.solveBinding numEnv oneRegime { defn := 4 }).1.firstOrder numEnv).2 = .error .attributeError := rfl

/-- **C107** is false: transition arrays made from an old solution are kept by the state space, and used after the
model was solved again. -/
theorem C107_false :
    ((Holder.run numEnv { defn := 4 } [.solve 1, .alter 6, .moments, .solve 1]).moments numEnv).2 = .ok [6, 6, 4] ∧
    numEnv.first 6 = .ok 6 ∧ numEnv.kalman 6 6 = .ok 6 ∧ numEnv.moments 6 6 6 = .ok [6, 6, 6] :=
  ⟨rfl, rfl, rfl, rfl⟩

/-- **C108** is false: if the model was altered after it was solved, the old solution is used. -/
theorem C108_false :
    ((Holder.run numEnv { defn := 4 } [.solve 1, .alter 6]).solveBinding numEnv oneRegime).2 = .ok (.binding 4) ∧
    numEnv.first 6 = .ok 6 ∧ numEnv.bind 6 () 6 = .ok 6 :=
  ⟨rfl, rfl, rfl⟩

/-- hypotheses of `C101_kept_partial`, `C101_failed_partial` and `C101_unchanged_partial` -/
example : (∃ o, Holder.solve numEnv o { defn := 4 } = ({ defn := 4, slot := some (.second 4 8) }, .ok (.second 4 8))) ∧
    (∃ o, Holder.solve numEnv o { defn := 3 } = ({ defn := 3, slot := some (.first 3) }, .error .valueError)) ∧
    Holder.solve numEnv 3 { defn := 3 } = ({ defn := 3 }, .error .valueError) := ⟨⟨2, rfl⟩, ⟨2, rfl⟩, rfl⟩

/-- hypotheses of `C102_linear_partial`, `C103_same_definition` and `C105_readable_partial` -/
example : (Holder.run numEnv { defn := 3 } [.solve 1, .alter 4, .solve 2, .alter 6, .moments]).slot = some (.second 4 8) ∧
    (Sol.second 4 8 : Sol Nat Nat Nat).order = some 2 ∧ (∀ o, (Sol.second 4 8 : Sol Nat Nat Nat) ≠ .binding o) ∧
    ∀ r ∈ ([.mean, .moments, .simulate 0] : List (Ask Nat Unit)), r.Reads := by
  refine ⟨rfl, rfl, by simp, by simp [Ask.Reads]⟩

/-- hypotheses of `C104_history` -/
example : (∀ r ∈ ([.solve 1, .moments, .solveBinding oneRegime, .mean] : List (Ask Nat Unit)), ∀ d, r ≠ .alter d) ∧
    ∃ m', (Holder.run numEnv { defn := 4 } [.solve 1, .moments, .solveBinding oneRegime, .mean]).moments numEnv =
      (m', .ok [4, 4, 4]) := ⟨by simp, _, rfl⟩

/-- hypotheses of `C106_refused` and `C106_type_error` -/
example : ({ oneRegime with init := true } : BindArgs Unit).init = true ∧
    ∃ m', Holder.solveBinding numEnv { oneRegime with init := false } { defn := 4 } = (m', .ok (.binding 4)) := ⟨rfl, _, rfl⟩

/-- hypotheses of `C107_fresh_partial` and `C107_altered_partial` -/
example : ∃ m' m'', ((Holder.run numEnv { defn := 4 } [.solve 1, .moments]).alter 6).solve numEnv 1 = (m', .ok (.first 6)) ∧
    (m'.run numEnv [.mean, .simulate 0]).moments numEnv = (m'', .ok [6, 6, 6]) := ⟨_, _, rfl, rfl⟩

/-- hypotheses of `C108_reference_partial` -/
example : (∃ m', (Holder.run numEnv { defn := 4 } [.solve 1, .alter 6]).solveBinding numEnv { oneRegime with exprs := .many } =
      (m', .ok (.binding 6))) ∧
    (∃ m', (Holder.run numEnv { defn := 4 } [.alter 6]).solveBinding numEnv oneRegime = (m', .ok (.binding 6))) ∧
    (Holder.run numEnv { defn := 4 } [.alter 6]).order = none := ⟨⟨_, rfl⟩, ⟨_, rfl⟩, rfl⟩

#print axioms C101_kept_partial
#print axioms C101_failed_partial
#print axioms C101_unchanged_partial
#print axioms C101_false
#print axioms C102_linear_partial
#print axioms C102_false
#print axioms C103_same_definition
#print axioms C104_history
#print axioms C105_readable_partial
#print axioms C105_false
#print axioms C106_refused
#print axioms C106_type_error
#print axioms C107_fresh_partial
#print axioms C107_altered_partial
#print axioms C107_false
#print axioms C108_reference_partial
#print axioms C108_false

end Pynare
