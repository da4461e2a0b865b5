import Verif.Spec.FileSolvable
import Verif.Lemmas.Solvable
import Verif.Props.WholeOrder
import Verif.Props.Solvable
/-!
# Lemmas about the model files that are solved
-/

namespace Pynare

variable {V : Type}

set_option linter.unusedSectionVars false

/-! ### the state space comes last -/

theorem fromOutline_swap {SS S : Type} [Zero V] [One V] {env env₀ : MEnv V SS S} (h1 : env₀.ops = env.ops)
    (h2 : env₀.okName = env.okName) {o : Outline V} {lang name : String}
    {md₀ : MState V SS S} (h : fromOutline env₀ o lang name = .ok md₀) :
    fromOutline env o lang name = (do
      let ss ← env.mkSS md₀.endog md₀.stoch.length md₀.indexes md₀.steady md₀.dynamic
      .ok { md₀ with statespace := ss }) := by
  simp only [fromOutline, Except.bind_ok_iff] at h
  obtain ⟨ls, g1, locals, g2, h⟩ := h
  split at h
  · cases h
  · rename_i hl
    simp only [Except.bind_ok_iff] at h
    obtain ⟨ps, g3, params, g4, h⟩ := h
    simp only [MState.build, Except.bind_ok_iff, Except.ok.injEq] at h
    obtain ⟨ll, a1, st, a2, sto, a3, det, a4, idx, a5, dy, a6, ss, a7, rfl⟩ := h
    rw [h1] at g2 g4 a2 a6
    rw [h2] at a2 a6
    simp only [fromOutline, g1, g2, g3, g4, exc_bind, if_neg hl, MState.build, a1, a2, a3, a4, a5, a6]

/-- solving a model that was just made, when both of its parts can be had -/
theorem solve_fresh_ok {SS S : Type} [Zero V] [One V] [Mul V] {env : MEnv V SS S} {md : MState V SS S}
    (hf : Fresh env md) (ha : md.altered = false) (hn : md.sigma = none) {sg : Sig V}
    (hs : defineSigma env.sqrt md.stoch = .ok sg) {s : S} (h : env.mkSol md.statespace sg = .ok s) :
    ∃ md', md.solve env = (md', .ok s) := by
  have hr := readSigma_fresh hf ha hn hs
  unfold MState.solve MState.readAttr MState.refresh
  simp only [ha, Bool.false_eq_true, if_false, hr, h]
  exact ⟨_, rfl⟩

/-! ### correlations and variances -/

theorem facShocks_corr {ops : Ops V} {sq : V → Except Err V} {look : String → Option V} (x : String) :
    ∀ (ss : List (Shock V)) {d d' : Dict (ShockDict V)}, facShocks ops sq look d ss = .ok d' →
      (sdOf d' x).corr ≠ none → (sdOf d x).corr ≠ none ∨ ∃ y e, Shock.corr x y e ∈ ss
  | [], d, d', h, hc => by simp [facShocks] at h; subst h; exact .inl hc
  | s :: ss, d, d', h, hc => by
    simp only [facShocks, Except.bind_ok_iff] at h
    obtain ⟨d1, h1, h2⟩ := h
    rcases facShocks_corr x ss h2 hc with h3 | ⟨y, e, h3⟩
    · by_cases hs : ∃ y e, s = .corr x y e
      · obtain ⟨y, e, rfl⟩ := hs
        exact .inr ⟨y, e, by simp⟩
      · left
        have : (sdOf d1 x).corr = (sdOf d x).corr := by
          cases s with
          | corr x' y e =>
            have hx : ¬ (Shock.corr x' y e).isPairOf x := by
              rintro hp
              have hp : x' = x := by simpa [Shock.isPairOf, Shock.isPair] using hp
              exact hs ⟨y, e, by rw [hp]⟩
            exact ((facShock_spec h1).2.1 x hx).2.1
          | cov x' y e =>
            simp only [facShock, Except.bind_ok_iff, Except.ok.injEq] at h1
            obtain ⟨v, -, rfl⟩ := h1
            by_cases hx : x = x'
            · subst hx
              simp [sdOf, Dict.get?_set_self]
            · simp [sdOf, Dict.get?_set_ne, Ne.symm hx]
          | variance x' e => exact ((facShock_spec h1).2.1 x (by simp [Shock.isPairOf])).2.1
          | stderr x' e => exact ((facShock_spec h1).2.1 x (by simp [Shock.isPairOf])).2.1
          | det x' ps vs => simp [facShock] at h1
        rwa [← this]
    · exact .inr ⟨y, e, List.mem_cons_of_mem _ h3⟩

theorem facShocks_var {ops : Ops V} {sq : V → Except Err V} {look : String → Option V} (x : String) :
    ∀ (ss : List (Shock V)) {d d' : Dict (ShockDict V)}, facShocks ops sq look d ss = .ok d' →
      (∀ s ∈ ss, s.HasValue ops sq look) → ((sdOf d x).variance ≠ none ∨ ∃ t ∈ ss, t.isVarOf x) →
      (sdOf d' x).variance ≠ none
  | [], d, d', h, _, hv => by
    simp [facShocks] at h; subst h
    rcases hv with hv | ⟨t, ht, -⟩
    · exact hv
    · cases ht
  | s :: ss, d, d', h, hval, hv => by
    simp only [facShocks, Except.bind_ok_iff] at h
    obtain ⟨d1, h1, h2⟩ := h
    refine facShocks_var x ss h2 (fun t ht => hval t (List.mem_cons_of_mem _ ht)) ?_
    by_cases hs : s.isVarOf x
    · left
      have hw := hval s (by simp)
      obtain ⟨v, hv⟩ : ∃ v, SetsVar ops sq look s x v := by
        cases s with
        | variance x' e => obtain ⟨v, hw⟩ := hw; obtain rfl : x' = x := hs; exact ⟨v, .variance hw⟩
        | stderr x' e => obtain ⟨v, w, hw, hq⟩ := hw; obtain rfl : x' = x := hs; exact ⟨w, .stderr hw hq⟩
        | corr x' y e => cases hs
        | cov x' y e => cases hs
        | det x' ps vs => cases hw
      rw [(facShock_spec h1).2.2.2.2.2.1 x v hv]
      simp
    · rcases hv with hv | ⟨t, ht, htx⟩
      · left
        rw [(facShock_spec h1).1 x hs]
        exact hv
      · rcases List.mem_cons.mp ht with rfl | ht
        · exact absurd htx hs
        · exact .inr ⟨t, ht, htx⟩

theorem outline_sigma [Zero V] [One V] [Mul V] {ops : Ops V} {sq : V → Except Err V} {okName : String → Bool}
    {m : ModelFile V} {ρ σ : String → Option V} (hr : Readable ops sq okName m ρ σ) (hc : CorrelatedHaveVariance m)
    {o : Outline V} (ho : createOutline ops sq m = .ok o) (sqrt : V → V) (names : List String) :
    ∃ sg, defineSigma sqrt (createStochs o.shocks names) = .ok sg := by
  obtain ⟨o', b, h, -, hb, hsh⟩ := outline_total hr
  rw [ho] at h
  cases h
  refine sigmaLoop_ok ?_ _
  intro s hs hcorr
  obtain ⟨x, -, rfl⟩ := List.mem_map.mp hs
  unfold createStoch at hcorr ⊢
  cases hx : o.shocks.get? x with
  | none => simp
  | some d =>
    rw [hx] at hcorr
    have hd : sdOf o.shocks x = d := by simp [sdOf, hx]
    have hcorr : (sdOf o.shocks x).corr ≠ none := by rw [hd]; exact hcorr
    rcases facShocks_corr x _ hsh hcorr with h0 | ⟨y, e, he⟩
    · exact absurd rfl h0
    · have := facShocks_var x _ hsh (fun s hs => (hr.shocks b hb s hs).1) (.inr (hc b hb x y e he))
      rw [hd] at this
      exact this

/-! ### satisfying the equations to first order -/

section
variable [Field V] [LinearOrder V] [IsStrictOrderedRing V]

theorem bound_upto (n : Nat) (a : Nat → V) : ∃ M ≥ 0, ∀ k < n, |a k| ≤ M :=
  rowSums n (fun k => |a k|) fun _ => abs_nonneg _

theorem linearised_scaled {pss : List (List Int)} {t : Llx} (h : buildLlx pss = .ok t) (nExog : Nat) (J : Arr V)
    (i : Nat) (s : V) (d : Around V) :
    linearised t nExog J i (d.scale s).before (d.scale s).now (d.scale s).after (d.scale s).shock =
      s * linearised t nExog J i d.before d.now d.after d.shock := by
  obtain ⟨D, hD⟩ := flat_exists h nExog d
  have hs : Flat t nExog (d.scale s) fun k => s * D k :=
    ⟨fun c k hk => by simp only [Around.scale, hD.before c k hk], fun c k hk => by simp only [Around.scale, hD.now c k hk],
      fun c k hk => by simp only [Around.scale, hD.after c k hk], fun j hj => by simp only [Around.scale, hD.shock j hj]⟩
  rw [linearised_flat h hD, linearised_flat h hs, sumTo_eq, sumTo_eq, Finset.mul_sum]
  exact Finset.sum_congr rfl fun k _ => by ring

/-- one function satisfies to first order -/
theorem deriv_direction {pss : List (List Int)} {t : Llx} (ht : buildLlx pss = .ok t) {nExog : Nat} {ss : List V}
    {J : Arr V} {i : Nat} {f : List V → Except Err V} (hder : IsDerivAt f (linPoint t.toTyper nExog ss) (J.e i))
    (h0 : f (linPoint t.toTyper nExog ss) = .ok 0) (d : Around V) :
    linearised t nExog J i d.before d.now d.after d.shock = 0 ↔
      ∀ ε > 0, ∃ δ > 0, ∀ s, |s| ≤ δ → ∀ vec, Assembled t nExog ss (d.scale s) vec →
        ∃ w, f vec = .ok w ∧ |w| ≤ ε * |s| := by
  obtain ⟨v₀, hv₀, hd⟩ := hder
  rw [h0] at hv₀
  cases hv₀
  obtain ⟨M0, p0, m0⟩ := bound_upto t.n d.before
  obtain ⟨M1, p1, m1⟩ := bound_upto t.n d.now
  obtain ⟨M2, p2, m2⟩ := bound_upto t.n d.after
  obtain ⟨M3, p3, m3⟩ := bound_upto nExog d.shock
  obtain ⟨M, hM, hb⟩ : ∃ M : V, 0 < M ∧ M0 ≤ M ∧ M1 ≤ M ∧ M2 ≤ M ∧ M3 ≤ M :=
    ⟨M0 + M1 + M2 + M3 + 1, by linarith, by linarith, by linarith, by linarith, by linarith⟩
  obtain ⟨b0, b1, b2, b3⟩ := hb
  have key : ∀ ε > 0, ∃ δ > 0, ∀ s, |s| ≤ δ → ∀ vec, Assembled t nExog ss (d.scale s) vec →
      ∃ w, f vec = .ok w ∧ |w - s * linearised t nExog J i d.before d.now d.after d.shock| ≤ ε * |s| := by
    intro ε hε
    obtain ⟨δ, hδ, h⟩ := hd (ε / M) (by positivity)
    refine ⟨δ / M, by positivity, fun s hs vec hvec => ?_⟩
    have sc : ∀ {x B : V}, |x| ≤ B → B ≤ M → |s * x| ≤ |s| * M := fun hx hB => by
      rw [abs_mul]
      exact mul_le_mul_of_nonneg_left (le_trans hx hB) (abs_nonneg s)
    have near := assembled_near ht hvec (B := |s| * M) (fun c hc => sc (m0 c hc) b0) (fun c hc => sc (m1 c hc) b1)
      (fun c hc => sc (m2 c hc) b2) (fun k hk => sc (m3 k hk) b3)
    obtain ⟨w, hw, hle⟩ := h (|s| * M) (by positivity) ((le_div_iff₀ hM).mp hs) vec near
    refine ⟨w, hw, ?_⟩
    have e1 := linearised_flat ht (assembled_flat ht hvec) J i
    rw [linearised_scaled ht nExog J i s d] at e1
    rw [linPoint_length ht] at hle
    simp only [argDev] at e1
    rw [← e1, sub_zero] at hle
    calc _ ≤ ε / M * (|s| * M) := hle
      _ = ε * |s| := by field_simp
  constructor
  · intro hL ε hε
    obtain ⟨δ, hδ, h⟩ := key ε hε
    refine ⟨δ, hδ, fun s hs vec hvec => ?_⟩
    obtain ⟨w, hw, hle⟩ := h s hs vec hvec
    rw [hL, mul_zero, sub_zero] at hle
    exact ⟨w, hw, hle⟩
  · intro hall
    refine zero_of_small' fun ε hε => ?_
    obtain ⟨δ, hδ, h⟩ := key (ε / 2) (by positivity)
    obtain ⟨δ', hδ', h'⟩ := hall (ε / 2) (by positivity)
    obtain ⟨s, hs, s1, s2⟩ : ∃ s : V, 0 < s ∧ s ≤ δ ∧ s ≤ δ' := ⟨min δ δ', lt_min hδ hδ', min_le_left _ _, min_le_right _ _⟩
    have ab : |s| = s := abs_of_pos hs
    obtain ⟨vec, hvec⟩ := assembled_exists ht nExog ss (d.scale s)
    obtain ⟨w, hw, hle⟩ := h s (by rw [ab]; exact s1) vec hvec
    obtain ⟨w', hw', hle'⟩ := h' s (by rw [ab]; exact s2) vec hvec
    rw [hw] at hw'
    cases hw'
    rw [ab] at hle hle'
    have h3 : |s * linearised t nExog J i d.before d.now d.after d.shock| ≤ ε * s := by
      have := abs_sub_abs_le_abs_sub (s * linearised t nExog J i d.before d.now d.after d.shock) w
      rw [abs_sub_comm] at this
      linarith
    rw [abs_mul, ab, mul_comm] at h3
    exact le_of_mul_le_mul_right h3 hs

/-- the directions that satisfy the equations of the file to first order -/
theorem TextBase.solves_iff {SS S : Type} {ops : Ops V} (hsub : ∀ a b, ops.bin .sub a b = .ok (a - b))
    {m : ModelFile V} {ρ σ : String → Option V} {md : MState V SS S} {pss : List (List Int)}
    (h : TextBase ops m ρ σ md pss) (he : PlainEquations m) (hw : WellPosed m) {ad : Autograd V} (had : ad.Exact)
    {ss : List V} {J : Arr V}
    (hJ : modelJacobian ad md.indexes.toTyper (m.names "varexo").length md.dynamic ss = .ok J)
    (hrest : ∀ l r, (l, r) ∈ equations m.stmts → GapIs ops m σ (levelsAt ss noDev) l r 0) (d : Around V) :
    SolvesToFirstOrder ops m σ ss d ↔
      ∀ i < J.r, linearised md.indexes (m.names "varexo").length J i d.before d.now d.after d.shock = 0 := by
  obtain ⟨j1, j2, j3⟩ := C109_jacobian ad had h.table _ _ _ _ hJ
  have hr := assembled_rest h.table (m.names "varexo").length ss
  have one : ∀ (i : Nat) l r f, (equations m.stmts)[i]? = some (l, r) → md.dynamic[i]? = some f →
      (linearised md.indexes (m.names "varexo").length J i d.before d.now d.after d.shock = 0 ↔
        ∀ ε > 0, ∃ δ > 0, ∀ s, |s| ≤ δ → ∃ w, GapIs ops m σ (levelsAt ss (d.scale s)) l r w ∧ |w| ≤ ε * |s|) := by
    intro i l r f hi hf
    rw [deriv_direction h.table (j3 i f hf)
      ((h.gap hsub he hw hi hf hr 0).mpr (hrest l r (List.mem_of_getElem? hi))) d]
    refine forall₂_congr fun ε _ => exists_congr fun δ => and_congr_right fun _ => forall₂_congr fun s _ => ?_
    constructor
    · intro hv
      obtain ⟨vec, hvec⟩ := assembled_exists h.table (m.names "varexo").length ss (d.scale s)
      obtain ⟨w, h1, h2⟩ := hv vec hvec
      exact ⟨w, (h.gap hsub he hw hi hf hvec w).mp h1, h2⟩
    · rintro ⟨w, h1, h2⟩ vec hvec
      exact ⟨w, (h.gap hsub he hw hi hf hvec w).mpr h1, h2⟩
  have hlen := h.rep.dynamicLength
  constructor
  · intro hs i hi
    rw [j1] at hi
    have hi' : i < (equations m.stmts).length := by omega
    refine (one i _ _ _ (List.getElem?_eq_getElem hi') (List.getElem?_eq_getElem hi)).mpr ?_
    exact hs _ _ (List.getElem_mem hi')
  · intro hs l r hlr
    obtain ⟨i, hi, e⟩ := List.getElem_of_mem hlr
    have hi' : i < md.dynamic.length := by omega
    exact (one i l r _ (by rw [List.getElem?_eq_getElem hi, e]) (List.getElem?_eq_getElem hi')).mp
      (hs i (by rw [j1]; exact hi'))

theorem oneBounded_file (φ : V →+* ℂ) {ops : Ops V} {m : ModelFile V} {σ : String → Option V} {ss : List V} {t : Llx}
    {J : Arr V} (hJ : J.r = (m.names "var").length)
    (hs : ∀ d, SolvesToFirstOrder ops m σ ss d ↔
      ∀ i < J.r, linearised t (m.names "varexo").length J i d.before d.now d.after d.shock = 0) :
    OneBoundedFilePath φ ops m σ ss ↔ OneBoundedPath φ t (m.names "varexo").length J := by
  have hb : ∀ y, BoundedFilePath φ ops m σ ss y ↔ BoundedPath φ t (m.names "varexo").length J y := by
    intro y
    unfold BoundedFilePath BoundedPath
    rw [hJ] at hs ⊢
    exact and_congr (forall_congr' fun τ => hs _) Iff.rfl
  unfold OneBoundedFilePath OneBoundedPath
  simp only [hb, hJ]

/-! ### the mix of variables -/

theorem one_of_count {α : Type} {P : α → Prop} [DecidablePred P] {xs : List α} (hn : xs.Nodup) :
    (xs.countP fun x => decide (P x)) = 1 ↔ ∃! x, x ∈ xs ∧ P x := by
  rw [List.countP_eq_length_filter, List.length_eq_one_iff]
  constructor
  · rintro ⟨a, ha⟩
    have mem : ∀ x, (x ∈ xs ∧ P x) ↔ x = a := by
      intro x
      have : x ∈ xs.filter (fun x => decide (P x)) ↔ x = a := by rw [ha]; simp
      simpa [List.mem_filter] using this
    exact ⟨a, (mem a).mpr rfl, fun y hy => (mem y).mp hy⟩
  · rintro ⟨a, ⟨ha, hp⟩, hu⟩
    refine ⟨a, ?_⟩
    have hnd := hn.filter (fun x => decide (P x))
    have mem : ∀ x, x ∈ xs.filter (fun x => decide (P x)) ↔ x = a := by
      intro x
      rw [List.mem_filter, decide_eq_true_eq]
      exact ⟨fun h => hu x h, fun h => by rw [h]; exact ⟨ha, hp⟩⟩
    exact List.perm_singleton.mp ((List.perm_ext_iff_of_nodup hnd (by simp)).mpr fun x => by rw [mem]; simp)

theorem TextBase.mix {SS S : Type} {ops : Ops V} {m : ModelFile V} {ρ σ : String → Option V} {md : MState V SS S}
    {pss : List (List Int)} (h : TextBase ops m ρ σ md pss) : SupportedMix pss ↔ SupportedFile m := by
  classical
  have at' : ∀ (c : Nat) x ps, (m.names "var")[c]? = some x → pss[c]? = some ps → ∀ p, p ≠ 0 → (p ∈ ps ↔ UsedAt m x p) := by
    intro c x ps hx hps p hp
    rw [h.mem c x ps hx hps p]
    refine exists₂_congr fun l r => and_congr_right fun _ => ?_
    simp [hp]
  have toName : ∀ ps ∈ pss, ∃ x, m.DeclaredAs x "var" ∧ (-1 ∈ ps ↔ UsedAt m x (-1)) ∧ (1 ∈ ps ↔ UsedAt m x 1) := by
    intro ps hps
    obtain ⟨c, hc, e⟩ := List.getElem_of_mem hps
    have hc' : c < (m.names "var").length := by rw [← h.len]; exact hc
    have h1 := List.getElem?_eq_getElem hc'
    have h2 : pss[c]? = some ps := by rw [List.getElem?_eq_getElem hc, e]
    exact ⟨_, mem_names.mp (List.getElem_mem hc'), at' c _ ps h1 h2 _ (by decide), at' c _ ps h1 h2 _ (by decide)⟩
  have ofName : ∀ x, m.DeclaredAs x "var" → ∃ ps ∈ pss, (-1 ∈ ps ↔ UsedAt m x (-1)) ∧ (1 ∈ ps ↔ UsedAt m x 1) := by
    intro x hx
    obtain ⟨c, hc, e⟩ := List.getElem_of_mem (mem_names.mpr hx)
    have hc' : c < pss.length := by rw [h.len]; exact hc
    have h1 : (m.names "var")[c]? = some x := by rw [List.getElem?_eq_getElem hc, e]
    have h2 := List.getElem?_eq_getElem hc'
    exact ⟨_, List.getElem_mem hc', at' c x _ h1 h2 _ (by decide), at' c x _ h1 h2 _ (by decide)⟩
  unfold SupportedMix SupportedFile
  refine and_congr ?_ (or_congr ?_ ?_)
  · constructor
    · rintro ⟨ps, hps, hp⟩
      obtain ⟨x, hx, -, h1⟩ := toName ps hps
      exact ⟨x, hx, h1.mp hp⟩
    · rintro ⟨x, hx, hp⟩
      obtain ⟨ps, hps, -, h1⟩ := ofName x hx
      exact ⟨ps, hps, h1.mpr hp⟩
  · constructor
    · rintro ⟨ps, hps, hp, hq⟩
      obtain ⟨x, hx, h0, h1⟩ := toName ps hps
      exact ⟨x, hx, h0.mp hp, fun h => hq (h1.mpr h)⟩
    · rintro ⟨x, hx, hp, hq⟩
      obtain ⟨ps, hps, h0, h1⟩ := ofName x hx
      exact ⟨ps, hps, h0.mpr hp, fun h => hq (h1.mp h)⟩
  · have hn : (m.names "var").Nodup := (List.nodup_append.mp (names_nodup h.acc)).1
    have e : (pss.map fun ps => decide (-1 ∈ ps ∧ 1 ∈ ps)) =
        (m.names "var").map fun x => decide (UsedAt m x (-1) ∧ UsedAt m x 1) := by
      refine List.ext_getElem (by simp [h.len]) fun c h1 h2 => ?_
      have h1' : c < pss.length := by simpa using h1
      have h2' : c < (m.names "var").length := by simpa using h2
      rw [List.getElem_map, List.getElem_map, decide_eq_decide]
      have a1 := List.getElem?_eq_getElem h2'
      have a2 := List.getElem?_eq_getElem h1'
      exact and_congr (at' c _ _ a1 a2 _ (by decide)) (at' c _ _ a1 a2 _ (by decide))
    have e' := congrArg (List.countP id) e
    rw [List.countP_map, List.countP_map] at e'
    simp only [Function.comp_def, id] at e'
    rw [e', one_of_count hn]
    simp only [mem_names]

theorem TextBase.count {SS S : Type} {ops : Ops V} {m : ModelFile V} {ρ σ : String → Option V} {md : MState V SS S}
    {pss : List (List Int)} (h : TextBase ops m ρ σ md pss) (p : Int) (hp : p ≠ 0) :
    (pss.countP fun ps => decide (p ∈ ps)) = countUsed m p := by
  classical
  have e : (pss.map fun ps => decide (p ∈ ps)) = (m.names "var").map fun x => decide (UsedAt m x p) := by
    refine List.ext_getElem (by simp [h.len]) fun c h1 h2 => ?_
    have h1' : c < pss.length := by simpa using h1
    have h2' : c < (m.names "var").length := by simpa using h2
    rw [List.getElem_map, List.getElem_map, decide_eq_decide,
      h.mem c _ _ (List.getElem?_eq_getElem h2') (List.getElem?_eq_getElem h1') p]
    refine exists₂_congr fun l r => and_congr_right fun _ => ?_
    simp [hp]
  have e' := congrArg (List.countP id) e
  rw [List.countP_map, List.countP_map] at e'
  simp only [Function.comp_def, id] at e'
  rw [e']
  unfold countUsed
  congr

theorem modelHessian_shape {ad : Autograd V} {pss : List (List Int)} {t : Llx} (ht : buildLlx pss = .ok t) {nExog : Nat}
    {fs : List (List V → Except Err V)} {ss : List V} {H : Arr V} (h : modelHessian ad t.toTyper nExog fs ss = .ok H) :
    H.r = fs.length ∧ H.c = (t.count + nExog) ^ 2 := by
  unfold modelHessian hessianArray at h
  obtain ⟨rows, h1, h⟩ := Except.bind_eq_ok h
  cases h
  refine ⟨?_, ?_⟩
  · show rows.length = fs.length
    rw [(assignRows_get h1).1, List.length_map]
  · show (linPoint t.toTyper nExog ss).length ^ 2 = _
    rw [linPoint_length ht nExog ss]

end

end Pynare
