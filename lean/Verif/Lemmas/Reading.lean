import Verif.Spec.Reading
import Verif.Lemmas.ModelObj
import Verif.Lemmas.FactoryCalib
/-! # Lemmas about models read from files -/

namespace Pynare

variable {V SS S : Type}

theorem localDefs_ok : ∀ {d : Dict (Option V)} {ds : Dict (Def V)}, localDefs d = .ok ds →
    (∀ p ∈ ds, ∃ v, p.2 = .num v) ∧ (∀ p ∈ d, p.2 ≠ none) ∧
    (∀ x, ds.get? x = match d.get? x with
      | some (some v) => some (.num v)
      | _ => none)
  | [], _, h => by simp [localDefs] at h; subst h; simp [Dict.get?]
  | (x, none) :: d, _, h => by simp [localDefs] at h
  | (x, some v) :: d, _, h => by
    simp only [localDefs, Except.bind_ok_iff, Except.ok.injEq] at h
    obtain ⟨ds, h1, rfl⟩ := h
    obtain ⟨a, b, c⟩ := localDefs_ok h1
    refine ⟨?_, ?_, ?_⟩
    · intro p hp
      rcases List.mem_cons.mp hp with rfl | hp
      · exact ⟨v, rfl⟩
      · exact a p hp
    · intro p hp
      rcases List.mem_cons.mp hp with rfl | hp
      · simp
      · exact b p hp
    · intro y
      simp only [Dict.get?]
      by_cases hx : x = y
      · simp [hx]
      · simp only [if_neg hx]; exact c y

theorem localDefs_total : ∀ {d : Dict (Option V)}, (∀ p ∈ d, p.2 ≠ none) → ∃ ds, localDefs d = .ok ds
  | [], _ => ⟨_, rfl⟩
  | (x, none) :: d, h => absurd rfl (h (x, none) (by simp))
  | (x, some v) :: d, h => by
    obtain ⟨ds, hd⟩ := localDefs_total (d := d) fun p hp => h p (List.mem_cons_of_mem _ hp)
    exact ⟨(x, .num v) :: ds, by simp only [localDefs, hd, bind, Except.bind]⟩

theorem dropNone_get {α : Type} {d : Dict (Option α)} (hn : d.keys.Nodup) (x : String) :
    (dropNone d).get? x = match d.get? x with
      | some (some v) => some v
      | _ => none := by
  induction d with
  | nil => rfl
  | cons p d ih =>
    obtain ⟨y, o⟩ := p
    simp only [Dict.keys, List.map_cons, List.nodup_cons] at hn
    have ih := ih hn.2
    cases o with
    | some v =>
      simp only [dropNone, Dict.get?]
      by_cases hy : y = x
      · simp [hy]
      · simp only [if_neg hy]; exact ih
    | none =>
      simp only [dropNone, Dict.get?]
      by_cases hy : y = x
      · subst hy
        simp only [if_true]
        rw [ih]
        have : Dict.get? d y = none := (Dict.get?_eq_none_iff d y).mpr hn.1
        rw [this]
      · simp only [if_neg hy]; exact ih

/-! ### local definitions -/

theorem facStmts_other {ops : Ops V} {model : Mem V} (ss : List (Stmt V)) : ∀ {st st' : Outline V × Mem V},
    facStmts ops model st ss = .ok st' → ∀ x, (∀ e, (x, e) ∉ localsOf ss) → st'.2.get? x = st.2.get? x := by
  induction ss with
  | nil => intro st st' h x _; simp [facStmts] at h; rw [h]
  | cons s ss ih =>
    intro st st' h x hx
    simp only [facStmts, Except.bind_ok_iff] at h
    obtain ⟨s1, h1, h2⟩ := h
    cases s with
    | loc y e =>
      rw [ih h2 x fun e' hm => hx e' (by simp [localsOf, hm])]
      simp only [facStmt, Except.bind_ok_iff, Except.ok.injEq] at h1
      obtain ⟨v, _, rfl⟩ := h1
      rw [Dict.get?_set]
      refine if_neg ?_
      rintro rfl; exact hx e (by simp [localsOf])
    | eqn l r t =>
      rw [ih h2 x hx]
      simp only [facStmt, Except.bind_ok_iff, Except.ok.injEq] at h1
      obtain ⟨v, _, rfl⟩ := h1
      rfl

theorem facStmts_locals {ops : Ops V} {model : Mem V} (ss : List (Stmt V)) : ∀ {st st' : Outline V × Mem V},
    facStmts ops model st ss = .ok st' → st.1.locals = st.2 → st'.1.locals = st'.2 := by
  induction ss with
  | nil => intro st st' h hl; simp [facStmts] at h; rw [← h]; exact hl
  | cons s ss ih =>
    intro st st' h hl
    simp only [facStmts, Except.bind_ok_iff] at h
    obtain ⟨s1, h1, h2⟩ := h
    refine ih h2 ?_
    cases s with
    | loc y e =>
      simp only [facStmt, Except.bind_ok_iff, Except.ok.injEq] at h1
      obtain ⟨v, _, rfl⟩ := h1
      simp [hl]
    | eqn l r t =>
      simp only [facStmt, Except.bind_ok_iff, Except.ok.injEq] at h1
      obtain ⟨v, _, rfl⟩ := h1
      exact hl

theorem mem_keys_set {α : Type} {d : Dict α} {k x : String} {v : α} : x ∈ (d.set k v).keys ↔ x ∈ d.keys ∨ x = k := by
  rw [← Dict.get?_isSome_iff, ← Dict.get?_isSome_iff, Dict.get?_set]
  by_cases h : k = x
  · simp [h]
  · simp [h, Ne.symm h]

theorem mem_of_set {α : Type} : ∀ {d : Dict α} {k : String} {v : α} {p : String × α}, p ∈ d.set k v → p = (k, v) ∨ p ∈ d
  | [], k, v, p, h => by simp [Dict.set] at h; exact .inl h
  | (k', w) :: d, k, v, p, h => by
    simp only [Dict.set] at h
    split at h
    · rename_i e
      rcases List.mem_cons.mp h with rfl | h
      · left; simp [e]
      · exact .inr (List.mem_cons_of_mem _ h)
    · rcases List.mem_cons.mp h with rfl | h
      · exact .inr (by simp)
      · rcases mem_of_set h with h | h
        · exact .inl h
        · exact .inr (List.mem_cons_of_mem _ h)

theorem facStmts_keys {ops : Ops V} {model : Mem V} (ss : List (Stmt V)) : ∀ {st st' : Outline V × Mem V},
    facStmts ops model st ss = .ok st' → ∀ x, x ∈ st'.2.keys ↔ x ∈ st.2.keys ∨ ∃ e, (x, e) ∈ localsOf ss := by
  induction ss with
  | nil => intro st st' h x; simp [facStmts] at h; rw [h]; simp [localsOf]
  | cons s ss ih =>
    intro st st' h x
    simp only [facStmts, Except.bind_ok_iff] at h
    obtain ⟨s1, h1, h2⟩ := h
    rw [ih h2]
    cases s with
    | loc y e =>
      simp only [facStmt, Except.bind_ok_iff, Except.ok.injEq] at h1
      obtain ⟨v, _, rfl⟩ := h1
      simp only [localsOf, List.mem_cons, Prod.mk.injEq]
      rw [mem_keys_set]
      constructor
      · rintro ((h | rfl) | ⟨e', h⟩)
        · exact .inl h
        · exact .inr ⟨e, .inl ⟨rfl, rfl⟩⟩
        · exact .inr ⟨e', .inr h⟩
      · rintro (h | ⟨e', ⟨rfl, _⟩ | h⟩)
        · exact .inl (.inl h)
        · exact .inl (.inr rfl)
        · exact .inr ⟨e', h⟩
    | eqn l r t =>
      simp only [facStmt, Except.bind_ok_iff, Except.ok.injEq] at h1
      obtain ⟨v, _, rfl⟩ := h1
      rfl

theorem memLookup_set_some (m : Mem V) (sc : List (Mem V)) (x : String) (v : V) :
    memLookup (m.set x (some v) :: sc) = fun y => if x = y then some v else memLookup (m :: sc) y := by
  funext y
  simp only [memLookup, Dict.get?_set]
  by_cases h : x = y
  · simp [h]
  · simp [h]

/-- the local definitions were executed from top to bottom, if all have a value -/
theorem facStmts_exec {ops : Ops V} {model : Mem V} (ss : List (Stmt V)) : ∀ {st st' : Outline V × Mem V},
    facStmts ops model st ss = .ok st' → ((localsOf ss).map Prod.fst).Nodup →
    (∀ x, x ∈ (localsOf ss).map Prod.fst → st'.2.get? x ≠ some none) →
    Exec ops (memLookup [st.2, model]) (localsOf ss) (memLookup [st'.2, model]) := by
  induction ss with
  | nil => intro st st' h _ _; simp [facStmts] at h; rw [h]; exact .nil
  | cons s ss ih =>
    intro st st' h hn hv
    simp only [facStmts, Except.bind_ok_iff] at h
    obtain ⟨s1, h1, h2⟩ := h
    cases s with
    | loc y e =>
      simp only [localsOf, List.map_cons, List.nodup_cons] at hn
      simp only [facStmt, Except.bind_ok_iff, Except.ok.injEq] at h1
      obtain ⟨v, hv1, rfl⟩ := h1
      have hy : st'.2.get? y = some v := by
        rw [facStmts_other ss h2 y fun e' hm => hn.1 (List.mem_map.mpr ⟨_, hm, rfl⟩)]
        simp [Dict.get?_set]
      cases v with
      | none => exact absurd hy (hv y (by simp [localsOf]))
      | some v =>
        refine .cons ((fileEval_iff ops _ e v).mp hv1) ?_
        have := ih h2 hn.2 fun x hx => hv x (by simp only [localsOf, List.map_cons, List.mem_cons]; exact .inr hx)
        rwa [memLookup_set_some] at this
    | eqn l r t =>
      simp only [facStmt, Except.bind_ok_iff, Except.ok.injEq] at h1
      obtain ⟨v, _, rfl⟩ := h1
      have := ih h2 hn hv
      exact this

/-- execution is deterministic -/
theorem exec_unique {ops : Ops V} {ρ ρ1 ρ2 : String → Option V} {as : List (String × Expr V)}
    (h : Exec ops ρ as ρ1) (h' : Exec ops ρ as ρ2) : ρ1 = ρ2 := by
  induction h with
  | nil => cases h'; rfl
  | @cons ρ ρ' x e v as he hx ih =>
    cases h' with
    | @cons _ _ _ _ w _ he' hx' =>
      cases evals_unique he he'
      exact ih hx'

theorem exec_defined {ops : Ops V} {ρ ρ' : String → Option V} {as : List (String × Expr V)}
    (h : Exec ops ρ as ρ') : ∀ x, (ρ x ≠ none ∨ ∃ e, (x, e) ∈ as) → ρ' x ≠ none := by
  induction h with
  | nil => rintro x (h | ⟨e, h⟩); exacts [h, by simp at h]
  | @cons ρ ρ' y e v as he hx ih =>
    intro x hx
    by_cases hyx : y = x
    · exact ih x (.inl (by simp [hyx]))
    · rcases hx with h | ⟨e', h⟩
      · exact ih x (.inl (by simpa [hyx] using h))
      · rcases List.mem_cons.mp h with h | h
        · exact absurd (Prod.mk.inj h).1.symm hyx
        · exact ih x (.inr ⟨e', h⟩)

theorem evals_vars {ops : Ops V} {ρ : String → Option V} {e : Expr V} {v : V} (h : Evals ops ρ e v) :
    ∀ x ∈ e.vars, ρ x ≠ none := by
  induction h with
  | num => simp [Expr.vars]
  | var h => intro x hx; simp [Expr.vars] at hx; subst hx; simp [h]
  | un _ _ ih => exact ih
  | bin _ _ _ ih1 ih2 =>
    intro x hx
    rcases List.mem_append.mp hx with h | h
    exacts [ih1 x h, ih2 x h]
  | cmp _ _ _ ih1 ih2 =>
    intro x hx
    rcases List.mem_append.mp hx with h | h
    exacts [ih1 x h, ih2 x h]
  | fn _ _ _ ih => exact ih

theorem memLookup_one (a : Mem V) (x : String) : memLookup [a] x = match a.get? x with
    | some (some v) => some v
    | _ => none := by
  simp only [memLookup]
  split <;> simp_all

/-- the memory of the parameters holds their values -/
theorem model_memory {m : ModelFile V} {s : Fac V} (hi : FacInv s)
    (hp : ∀ x, s.out.params.get? x ≠ none ↔ (x, "parameters") ∈ m.decls) :
    memLookup [s.model] = m.paramVals (memLookup [s.file, s.model]) := by
  funext x
  simp only [ModelFile.paramVals, memLookup_two, memLookup_one]
  by_cases hx : (x, "parameters") ∈ m.decls
  · rw [if_pos hx]
    have : s.file.get? x = none := by
      rw [Dict.get?_eq_none_iff]
      intro hm; exact (hp x).mpr hx (hi.file x hm)
    simp only [this]
    split <;> simp_all
  · rw [if_neg hx]
    have : s.model.get? x = none := by
      rw [Dict.get?_eq_none_iff]
      intro hm; exact hx ((hp x).mp (hi.model x hm))
    simp only [this]

theorem llx_of {es : List (Expr V)} {d : Dict (List Int)} {endog : List (Endog V)} {t : Llx}
    (h1 : readLeadLags (endog.map Endog.name) es = .ok d) (h2 : ∀ e ∈ endog, e.leadLag = d.get? e.name)
    (h3 : buildLlx (endog.map fun e => e.leadLag.getD []) = .ok t) :
    modelLlx (endog.map Endog.name) es = .ok t := by
  simp only [modelLlx, h1, bind, Except.bind]
  rw [List.map_map]
  have : endog.map ((fun x => (d.get? x).getD []) ∘ Endog.name) =
      endog.map fun e => e.leadLag.getD [] := by
    refine List.map_congr_left ?_
    intro e he
    simp [h2 e he]
  rw [this, h3]

theorem steadyFuncs_at [Zero V] {ops : Ops V} {okName : String → Bool} {endo : List String} {σ : String → Option V} :
    ∀ {es : List (Expr V)} {fs : List (List V → Except Err V)}, steadyFuncs ops okName endo σ es = .ok fs →
    fs.length = es.length ∧ ∀ (i : Nat) e, es[i]? = some e → ∃ f, fs[i]? = some f ∧ steadyFunc ops okName endo σ e = .ok f := by
  intro es
  induction es with
  | nil => intro fs h; cases h; simp
  | cons e es ih =>
    intro fs h
    simp only [steadyFuncs, Except.bind_ok_iff, Except.ok.injEq] at h
    obtain ⟨f, hf, gs, hg, rfl⟩ := h
    obtain ⟨i1, i2⟩ := ih hg
    refine ⟨by simp [i1], fun i e' he => ?_⟩
    cases i with
    | zero => simp at he; subst he; exact ⟨f, by simp, hf⟩
    | succ i => simpa using i2 i e' (by simpa using he)

theorem dropNone_some {α : Type} : ∀ {d : Dict (Option α)} {x : String} {v : α}, d.get? x = some (some v) →
    (dropNone d).get? x = some v
  | [], _, _, h => by simp [Dict.get?] at h
  | (y, o) :: d, x, v, h => by
    simp only [Dict.get?] at h
    by_cases hy : y = x
    · simp [hy] at h; subst h; simp [dropNone, Dict.get?, hy]
    · simp only [if_neg hy] at h
      cases o with
      | none => exact dropNone_some (d := d) h
      | some w => simp only [dropNone, Dict.get?, if_neg hy]; exact dropNone_some (d := d) h

theorem dropNone_none {α : Type} : ∀ {d : Dict (Option α)} {x : String}, d.get? x = none → (dropNone d).get? x = none
  | [], _, _ => rfl
  | (y, o) :: d, x, h => by
    simp only [Dict.get?] at h
    by_cases hy : y = x
    · simp [hy] at h
    · simp only [if_neg hy] at h
      cases o with
      | none => exact dropNone_none (d := d) h
      | some w => simp only [dropNone, Dict.get?, if_neg hy]; exact dropNone_none (d := d) h

/-! ### totality -/

theorem facDecls_total : ∀ {ds : List (String × String)} (o : Outline V),
    (∀ p ∈ ds, p.2 = "var" ∨ p.2 = "varexo" ∨ p.2 = "varexo_det" ∨ p.2 = "parameters") →
    ∃ o', facDecls o ds = .ok o'
  | [], o, _ => ⟨o, rfl⟩
  | (x, k) :: ds, o, h => by
    obtain ⟨o1, h1⟩ : ∃ o1, facDecl o x k = .ok o1 := by
      rcases h (x, k) (by simp) with h | h | h | h <;> simp only at h <;> subst h <;> exact ⟨_, rfl⟩
    obtain ⟨o2, h2⟩ := facDecls_total (ds := ds) o1 fun p hp => h p (List.mem_cons_of_mem _ hp)
    exact ⟨o2, by simp [facDecls, h1, h2, bind, Except.bind]⟩

theorem facPeriods_total (e : Expr V) (hc : e.hasCmp = false) : ∀ d, ∃ d', facPeriods d e = .ok d' := by
  induction e with
  | num v => intro d; exact ⟨_, rfl⟩
  | var x => intro d; exact ⟨_, rfl⟩
  | pvar x o => intro d; exact ⟨_, rfl⟩
  | un op e ih => exact ih hc
  | fn f e ih => exact ih hc
  | cmp op l r _ _ => simp [Expr.hasCmp] at hc
  | bin op l r ihl ihr =>
    intro d
    simp only [Expr.hasCmp, Bool.or_eq_false_iff] at hc
    obtain ⟨t, h1⟩ := ihl hc.1 d
    obtain ⟨u, h2⟩ := ihr hc.2 t
    exact ⟨u, by simp [facPeriods, h1, h2, bind, Except.bind]⟩

theorem facStmts_total {ops : Ops V} {model : Mem V} : ∀ {ss : List (Stmt V)} {st : Outline V × Mem V}
    {σ : String → Option V}, Exec ops (memLookup [st.2, model]) (localsOf ss) σ →
    (∀ l r t, Stmt.eqn l r t ∈ ss → l.hasCmp = false ∧ r.hasCmp = false) → (∀ p ∈ st.2, p.2 ≠ none) →
    ∃ st', facStmts ops model st ss = .ok st' ∧ ∀ p ∈ st'.2, p.2 ≠ none
  | [], st, σ, _, _, hn => ⟨st, rfl, hn⟩
  | .loc x e :: ss, st, σ, hx, hc, hn => by
    cases hx with
    | @cons _ _ _ _ v _ he hx =>
      have hv := (fileEval_iff ops _ e v).mpr he
      obtain ⟨st', h1, h2⟩ := facStmts_total (ss := ss)
        (st := ({ st.1 with locals := st.1.locals.set x (some v) }, st.2.set x (some v))) (σ := σ)
        (by rw [memLookup_set_some]; exact hx) (fun l r t hm => hc l r t (List.mem_cons_of_mem _ hm)) (by
          intro p hp
          rcases mem_of_set hp with rfl | hp
          · simp
          · exact hn p hp)
      exact ⟨st', by simp [facStmts, facStmt, hv, bind, Except.bind]; exact h1, h2⟩
  | .eqn l r t :: ss, st, σ, hx, hc, hn => by
    obtain ⟨c1, c2⟩ := hc l r t (by simp)
    obtain ⟨d, hd⟩ := facPeriods_total (.bin .sub l r) (by simp [Expr.hasCmp, c1, c2]) st.1.leadLags
    obtain ⟨st', h1, h2⟩ := facStmts_total (ss := ss)
      (st := ({ st.1 with leadLags := d, exprs := st.1.exprs ++ [.bin .sub l r] }, st.2)) (σ := σ) hx
      (fun l r t hm => hc l r t (List.mem_cons_of_mem _ hm)) hn
    exact ⟨st', by simp [facStmts, facStmt, hd, bind, Except.bind]; exact h1, h2⟩

theorem facBound_total {ops : Ops V} {look : String → Option V} : ∀ {bs : List (String × Expr V)} (d : Dict (Option V)),
    (∀ x e, (x, e) ∈ bs → ∃ v, Evals ops look e v) → ∃ d', facBound ops look d bs = .ok d'
  | [], d, _ => ⟨d, rfl⟩
  | (x, e) :: bs, d, h => by
    obtain ⟨v, hv⟩ := h x e (by simp)
    have hv := (fileEval_iff ops look e v).mpr hv
    obtain ⟨d', h'⟩ := facBound_total (bs := bs) (d.set x (some v)) fun y e' hm => h y e' (List.mem_cons_of_mem _ hm)
    exact ⟨d', by simp [facBound, hv, h', bind, Except.bind]⟩

theorem facBounds_total {ops : Ops V} {look : String → Option V} {a : Actions V} (o : Outline V)
    (h : ∀ b, a.initval = some b ∨ a.endval = some b ∨ a.histval = some b →
      ∀ x e, (x, e) ∈ b.vals → ∃ v, Evals ops look e v)
    (hh : a.histval ≠ none → a.endval ≠ none) : ∃ o', facBounds ops look o a = .ok o' := by
  obtain ⟨iv, ev, hv, sh⟩ := a
  have hb : ∀ b, iv = some b ∨ ev = some b ∨ hv = some b → ∃ d, facBound ops look [] b.vals = .ok d :=
    fun b hb => facBound_total [] (h b hb)
  simp only [facBounds, bind, Except.bind, pure, Except.pure]
  cases iv with
  | none =>
    cases ev with
    | none =>
      cases hv with
      | none => exact ⟨_, rfl⟩
      | some b => exact absurd rfl (hh (by simp))
    | some c =>
      obtain ⟨d, hd⟩ := hb c (by simp)
      cases hv with
      | none => simp [hd]
      | some b => obtain ⟨d', hd'⟩ := hb b (by simp); simp [hd, hd']
  | some i =>
    obtain ⟨di, hdi⟩ := hb i (by simp)
    cases ev with
    | none =>
      cases hv with
      | none => simp [hdi]
      | some b => exact absurd rfl (hh (by simp))
    | some c =>
      obtain ⟨d, hd⟩ := hb c (by simp)
      cases hv with
      | none => simp [hdi, hd]
      | some b => obtain ⟨d', hd'⟩ := hb b (by simp); simp [hdi, hd, hd']

theorem facShocks_total {ops : Ops V} {sq : V → Except Err V} {look : String → Option V} :
    ∀ {ss : List (Shock V)} (d : Dict (ShockDict V)), (∀ s ∈ ss, s.HasValue ops sq look) →
    ∃ d', facShocks ops sq look d ss = .ok d'
  | [], d, _ => ⟨d, rfl⟩
  | s :: ss, d, h => by
    obtain ⟨d1, h1⟩ : ∃ d1, facShock ops sq look d s = .ok d1 := by
      have hs := h s (by simp)
      cases s with
      | variance x e =>
        obtain ⟨v, hv⟩ := hs
        have hv := (fileEval_iff ops look e v).mpr hv
        simp [facShock, hv, bind, Except.bind]
      | stderr x e =>
        obtain ⟨v, w, hv, hw⟩ := hs
        have hv := (fileEval_iff ops look e v).mpr hv
        simp [facShock, hv, hw, bind, Except.bind]
      | corr x y e =>
        obtain ⟨v, hv⟩ := hs
        have hv := (fileEval_iff ops look e v).mpr hv
        simp [facShock, hv, bind, Except.bind]
      | cov x y e =>
        obtain ⟨v, hv⟩ := hs
        have hv := (fileEval_iff ops look e v).mpr hv
        simp [facShock, hv, bind, Except.bind]
      | det x ps vs => exact absurd hs id
    obtain ⟨d', h'⟩ := facShocks_total (ss := ss) d1 fun t ht => h t (List.mem_cons_of_mem _ ht)
    exact ⟨d', by simp [facShocks, h1, h', bind, Except.bind]⟩

end Pynare
