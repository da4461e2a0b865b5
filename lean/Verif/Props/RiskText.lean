import Verif.Spec.RiskText
import Verif.Props.Whole
import Verif.Props.Risk
import Verif.Props.Reading
import Verif.Examples.WholeRun
/-!
# Risk in models made from the text of a file (C163)

Kept apart from the helper lemmas.
-/

set_option linter.unusedSectionVars false

namespace Pynare

section
variable {V : Type} [Field V] [LinearOrder V] [IsStrictOrderedRing V]

/-- **C163.** Let a model be made from the text of a file, whose shocks block is plain, and solved to second order.  Let `z`
be shocks with mean zero and the covariances the shocks block states, and let next period's shocks be `s * z`.  Along the
solution, with the constant for risk belonging to shocks of that size, every equation of the file holds on average, up to an
error that is small compared with the square of the deviations and of `s`. -/
theorem C163_risk_text_partial {SS S : Type} (r : ReadEnv V SS S) (lib : Libs V) (ex : lib.la.Exact)
    (had : lib.ad.Exact) (hqz : GQZExact lib.qz)
    (hsub : ∀ a b, r.env.ops.bin .sub a b = .ok (a - b)) {text : List Char} {m : ModelFile V} {ρ : String → Option V}
    {md md' : MState V (ModelSpace V) ((Arr V × Arr V) × SecondNd V)} (h : ReadFrom (r.second lib (1 / 2)) text m ρ md)
    (had2 : ∀ f ∈ md.dynamic,
      lib.ad.SecondExactAt f (linPoint md.indexes.toTyper (m.names "varexo").length md.statespace.steady))
    (hw : WellPosed m) {b : Shocks V} (hb : m.actions.shocks = some b) (hp : PlainShocks (m.names "varexo") b.shocks)
    (hval : ∀ s ∈ b.shocks, ∀ x, s.isVarOf x → ∃ v, SetsVar r.env.ops r.sq ρ s x v)
    {gy gu : Arr V} {so : SecondNd V}
    (hsol : md.solve (r.env.second lib (1 / 2)) = (md', .ok ((gy, gu), so)))
    (hsep : md.statespace.space.parts.Separated) (N : Nat) (w : Nat → V) (z : Nat → Nat → V)
    (hw0 : ∀ ω < N, 0 ≤ w ω) (hw1 : expect N w (fun _ => 1) = 1)
    (hmean : ∀ k < (m.names "varexo").length, expect N w (fun ω => z ω k) = 0)
    (hcov : ∀ j < (m.names "varexo").length, ∀ k < (m.names "varexo").length,
      FileCov r.env.ops r.sq r.env.sqrt (m.names "varexo") ρ b.shocks j k (expect N w fun ω => z ω j * z ω k)) :
    ∃ σ, FileVals r.env.ops m ρ σ ∧
    (∀ l rr, (l, rr) ∈ equations m.stmts →
      ∃ w₀, GapIs r.env.ops m σ (levelsAt md.statespace.steady noDev) l rr w₀) ∧
    ∀ ε > 0, ∃ δ > 0, ∀ e, e ≤ δ → ∀ (s : V) (ym u y : Nat → V) (yE : Nat → Nat → V), |s| ≤ e →
      (∀ c < (m.names "var").length, |ym c| ≤ e) → (∀ k < (m.names "varexo").length, |u k| ≤ e) →
      FollowsRisk md.indexes.toTyper (m.names "varexo").length so gy gu (s * s) ym u y →
      (∀ ω < N, FollowsRisk md.indexes.toTyper (m.names "varexo").length so gy gu (s * s) y (fun k => s * z ω k) (yE ω)) →
      ∀ l rr, (l, rr) ∈ equations m.stmts →
        (∃ g : Nat → V, ∀ ω < N, GapIs r.env.ops m σ (levelsAt md.statespace.steady ⟨ym, y, yE ω, u⟩) l rr (g ω)) ∧
        ∀ (g : Nat → V) w₀,
          (∀ ω < N, GapIs r.env.ops m σ (levelsAt md.statespace.steady ⟨ym, y, yE ω, u⟩) l rr (g ω)) →
          GapIs r.env.ops m σ (levelsAt md.statespace.steady noDev) l rr w₀ → |expect N w g - w₀| ≤ ε * (e * e) := by
  obtain ⟨σ, pss, tf⟩ := text_facts (lib := lib) rfl h
  obtain ⟨s1, s2, s3, s4, s5, s6, s7⟩ := modelSpace_ok tf.space
  obtain ⟨sg, hs, hsg⟩ := solve_fresh tf.fresh hsol
  have hs : secondSolution lib (1 / 2) md.statespace sg = .ok ((gy, gu), so) := hs
  unfold secondSolution at hs
  obtain ⟨⟨gy', gu'⟩, hs1, hs⟩ := Except.bind_eq_ok hs
  obtain ⟨H, hs2, hs⟩ := Except.bind_eq_ok hs
  obtain ⟨so', hs3, hs⟩ := Except.bind_eq_ok hs
  cases hs
  rw [s1, s2] at hs1 hs2 hs3
  rw [s3] at hs2
  obtain ⟨h1, h2, h3, J, h4, h5⟩ := hessian_taylor lib.ad had tf.table _ _ _ had2 _ hs2
  obtain rfl : md.statespace.jacobian = J := Except.ok.inj (s6.symm.trans h4)
  obtain ⟨j1, j2, j3⟩ := C109_jacobian lib.ad had tf.table _ _ _ _ s6
  have hps := tf.periods h.equations hw
  have hfs : md.dynamic.length = pss.length := by rw [tf.rep.dynamicLength, hw.square, tf.len]
  obtain ⟨hn, -⟩ := solved_facts ex hps tf.table s7 hs1
  -- the covariance matrix is the one the block states
  obtain ⟨us, hfile, hwr⟩ := h.file
  obtain ⟨lang, name, hmade⟩ := h.made
  obtain ⟨sig, hsig, q1, q2, q3, q4⟩ := C118_shocks_partial h.chars hfile hwr hmade h.values hb hp hval
  have hsg : sg = sig := by
    have : (md.readSigma (r.env.second lib (1 / 2))).2 = .ok sig := congrArg Prod.snd hsig
    exact Except.ok.inj (hsg.symm.trans this)
  subst hsg
  have hd : ShockDist N w z (m.names "varexo").length
      ⟨(m.names "varexo").length, (m.names "varexo").length, sg⟩ := by
    refine ⟨hw0, hw1, hmean, fun j hj k hk => ?_⟩
    have := hcov j hj k hk
    generalize expect N w (fun ω => z ω j * z ω k) = c at this
    show c = sg j k
    cases this with
    | var e hx hv => subst e; exact (q1 _ _ _ hx hv).symm
    | corr hx hy hm he hvx hvy =>
      rcases hm with hm | hm
      · exact (q2 _ _ _ _ _ _ _ _ hx hy hm he hvx hvy).1.symm
      · have := (q2 _ _ _ _ _ _ _ _ hy hx hm he hvy hvx).2
        rw [mul_comm] at this
        rw [this]
        rw [mul_comm]
        congr 2
        exact mul_comm _ _
    | cov hx hy hm he =>
      rcases hm with hm | hm
      · exact (q3 _ _ _ _ _ _ hx hy hm he).1.symm
      · exact (q3 _ _ _ _ _ _ hy hx hm he).2.symm
    | none hjk hx hy hm => exact (q4 _ _ _ _ hjk hx hy hm).symm
  obtain ⟨v₀, hv₀, hacc⟩ := C162_risk_accuracy lib.la ex lib.qz hqz pss md.indexes hps tf.table _ md.dynamic hfs
    md.statespace.steady md.statespace.jacobian H _ (by rw [j1, hfs]) (by rw [h1, hfs])
    (fun i hi => h3 i (by omega)) ⟨rfl, rfl⟩ h5 _ gy gu s7 hsep hs1 so' hs3 N w z hd
  have hlen := linPoint_length tf.table (m.names "varexo").length md.statespace.steady
  have hcall : ∀ vec : List V, vec.length = md.indexes.count + (m.names "varexo").length →
      dynamicCall md.indexes (m.names "varexo").length md.dynamic vec = callAll md.dynamic vec := by
    intro vec h; unfold dynamicCall; rw [if_pos h]
  rw [hcall _ hlen] at hv₀
  obtain ⟨l₀, g₀⟩ := callAll_get hv₀
  have hfun : ∀ l rr, (l, rr) ∈ equations m.stmts → ∃ (i : Nat) (f : ResFun V),
      (equations m.stmts)[i]? = some (l, rr) ∧ md.dynamic[i]? = some f := by
    intro l rr hlr
    obtain ⟨i, hi, e⟩ := List.getElem_of_mem hlr
    have : i < md.dynamic.length := by rw [tf.rep.dynamicLength]; exact hi
    exact ⟨i, _, by rw [List.getElem?_eq_getElem hi, e], List.getElem?_eq_getElem this⟩
  have hrest := assembled_rest tf.table (m.names "varexo").length md.statespace.steady
  refine ⟨σ, tf.vals, fun l rr hlr => ?_, fun ε hε => ?_⟩
  · obtain ⟨i, f, hi, hf⟩ := hfun l rr hlr
    obtain ⟨w, -, hw'⟩ := g₀ i f hf
    exact ⟨w, (tf.gap hsub h.equations hw hi hf hrest w).mp hw'⟩
  · obtain ⟨δ, hδ, hacc⟩ := hacc ε hε
    refine ⟨δ, hδ, fun e hle s ym u y yE hse hym hu hy hyE l rr hlr => ?_⟩
    have hex : ∀ ω, ∃ vec, Assembled md.indexes (m.names "varexo").length md.statespace.steady ⟨ym, y, yE ω, u⟩ vec :=
      fun ω => assembled_exists tf.table (m.names "varexo").length md.statespace.steady ⟨ym, y, yE ω, u⟩
    choose vec hvec using hex
    obtain ⟨v, hv, hbd⟩ := hacc e hle s ym u y yE hse (fun c hc => hym c (by rw [← tf.len]; omega)) hu hy hyE vec
      (fun ω _ => hvec ω)
    obtain ⟨i, f, hi, hf⟩ := hfun l rr hlr
    obtain ⟨w₂, b1, b2⟩ := g₀ i f hf
    have hval1 : ∀ ω < N, f (vec ω) = .ok (vecEntry (v ω) i) := by
      intro ω hω
      obtain ⟨hc, -⟩ := hv ω hω
      rw [hcall _ (hvec ω).len] at hc
      obtain ⟨w₁, a1, a2⟩ := (callAll_get hc).2 i f hf
      unfold vecEntry
      rw [a1]
      exact a2
    refine ⟨⟨fun ω => vecEntry (v ω) i, fun ω hω =>
      (tf.gap hsub h.equations hw hi hf (hvec ω) _).mp (hval1 ω hω)⟩, fun g w₀ hg hg₀ => ?_⟩
    have e2 := (tf.gap hsub h.equations hw hi hf hrest w₀).mpr hg₀
    rw [b2] at e2
    have := hbd i (List.getElem?_eq_some_iff.mp b1).1
    have e3 : expect N w (fun ω => vecEntry (v ω) i) = expect N w g := by
      refine expect_congr fun ω hω => ?_
      have e1 := (tf.gap hsub h.equations hw hi hf (hvec ω) (g ω)).mpr (hg ω hω)
      rw [hval1 ω hω] at e1
      exact Except.ok.inj e1
    rw [e3] at this
    have e4 : vecEntry v₀ i = w₂ := by unfold vecEntry; rw [b1]; rfl
    rw [e4, Except.ok.inj e2] at this
    exact this

end

/-- **C163** over the real numbers, where it is enough that each differentiation is exact. -/
theorem C163_real_partial {SS S : Type} (r : ReadEnv ℝ SS S) (lib : Libs ℝ) (ex : lib.la.Exact)
    (had : lib.ad.Exact) (hqz : GQZExact lib.qz)
    (hsub : ∀ a b, r.env.ops.bin .sub a b = .ok (a - b)) {text : List Char} {m : ModelFile ℝ} {ρ : String → Option ℝ}
    {md md' : MState ℝ (ModelSpace ℝ) ((Arr ℝ × Arr ℝ) × SecondNd ℝ)} (h : ReadFrom (r.second lib (1 / 2)) text m ρ md)
    (hw : WellPosed m) {b : Shocks ℝ} (hb : m.actions.shocks = some b) (hp : PlainShocks (m.names "varexo") b.shocks)
    (hval : ∀ s ∈ b.shocks, ∀ x, s.isVarOf x → ∃ v, SetsVar r.env.ops r.sq ρ s x v)
    {gy gu : Arr ℝ} {so : SecondNd ℝ}
    (hsol : md.solve (r.env.second lib (1 / 2)) = (md', .ok ((gy, gu), so)))
    (hsep : md.statespace.space.parts.Separated) (N : Nat) (w : Nat → ℝ) (z : Nat → Nat → ℝ)
    (hw0 : ∀ ω < N, 0 ≤ w ω) (hw1 : expect N w (fun _ => 1) = 1)
    (hmean : ∀ k < (m.names "varexo").length, expect N w (fun ω => z ω k) = 0)
    (hcov : ∀ j < (m.names "varexo").length, ∀ k < (m.names "varexo").length,
      FileCov r.env.ops r.sq r.env.sqrt (m.names "varexo") ρ b.shocks j k (expect N w fun ω => z ω j * z ω k)) :
    ∃ σ, FileVals r.env.ops m ρ σ ∧
    (∀ l rr, (l, rr) ∈ equations m.stmts →
      ∃ w₀, GapIs r.env.ops m σ (levelsAt md.statespace.steady noDev) l rr w₀) ∧
    ∀ ε > 0, ∃ δ > 0, ∀ e, e ≤ δ → ∀ (s : ℝ) (ym u y : Nat → ℝ) (yE : Nat → Nat → ℝ), |s| ≤ e →
      (∀ c < (m.names "var").length, |ym c| ≤ e) → (∀ k < (m.names "varexo").length, |u k| ≤ e) →
      FollowsRisk md.indexes.toTyper (m.names "varexo").length so gy gu (s * s) ym u y →
      (∀ ω < N, FollowsRisk md.indexes.toTyper (m.names "varexo").length so gy gu (s * s) y (fun k => s * z ω k) (yE ω)) →
      ∀ l rr, (l, rr) ∈ equations m.stmts →
        (∃ g : Nat → ℝ, ∀ ω < N, GapIs r.env.ops m σ (levelsAt md.statespace.steady ⟨ym, y, yE ω, u⟩) l rr (g ω)) ∧
        ∀ (g : Nat → ℝ) w₀,
          (∀ ω < N, GapIs r.env.ops m σ (levelsAt md.statespace.steady ⟨ym, y, yE ω, u⟩) l rr (g ω)) →
          GapIs r.env.ops m σ (levelsAt md.statespace.steady noDev) l rr w₀ → |expect N w g - w₀| ≤ ε * (e * e) :=
  C163_risk_text_partial r lib ex had hqz hsub h (fun _ _ _ hj => autograd_taylor had hj) hw hb hp hval hsol hsep N w z hw0 hw1
    hmean hcov

/-! ### the hypotheses are met -/

/-- two independent shocks with variances one and one half -/
def whZ (ω k : Nat) : ℚ :=
  if k = 0 then (if ω < 4 then 1 else -1) else if ω % 4 = 0 then 1 else if ω % 4 = 1 then -1 else 0

theorem wh_shocks : PlainShocks (whFile.names "varexo") [.stderr "u" (.num 1), .stderr "w" (.num (1 / 2 : ℚ))] where
  oneVar pre s post h x hx t ht := by
    match pre, h with
    | [], h =>
      cases h
      cases hx
      simp only [List.mem_singleton] at ht
      subst ht
      exact fun h => absurd (show "w" = "u" from h) (by decide)
    | [_], h => cases h; cases ht
    | _ :: _ :: [], h => cases h
    | _ :: _ :: _ :: _, h => cases h
  onePair pre s post h x hx t ht := by
    have hs : s ∈ [Shock.stderr "u" (.num 1), .stderr "w" (.num (1 / 2 : ℚ))] := by rw [h]; simp
    simp only [List.mem_cons, List.not_mem_nil, or_false] at hs
    rcases hs with rfl | rfl <;> cases hx
  hasVar s hs x hx := by
    simp only [List.mem_cons, List.not_mem_nil, or_false] at hs
    rcases hs with rfl | rfl <;> cases hx
  declared s hs x y hx := by
    simp only [List.mem_cons, List.not_mem_nil, or_false] at hs
    rcases hs with rfl | rfl <;> cases hx
  proper s hs x y hx := by
    simp only [List.mem_cons, List.not_mem_nil, or_false] at hs
    rcases hs with rfl | rfl <;> cases hx

/-- C163 applies to the text of C160 -/
example : ∃ (md md' : MState ℚ (ModelSpace ℚ) ((Arr ℚ × Arr ℚ) × SecondNd ℚ)) (gy gu : Arr ℚ) (so : SecondNd ℚ),
    whLib.la.Exact ∧ whLib.ad.Exact ∧ GQZExact whLib.qz ∧ (∀ a b, whRead.env.ops.bin .sub a b = .ok (a - b)) ∧
    ReadFrom (whRead.second whLib (1 / 2)) (exText whText) whFile noValues md ∧ WellPosed whFile ∧
    (∀ f ∈ md.dynamic,
      whLib.ad.SecondExactAt f (linPoint md.indexes.toTyper (whFile.names "varexo").length md.statespace.steady)) ∧
    md.solve (whRead.env.second whLib (1 / 2)) = (md', .ok ((gy, gu), so)) ∧ md.statespace.space.parts.Separated ∧
    ∃ b, whFile.actions.shocks = some b ∧ PlainShocks (whFile.names "varexo") b.shocks ∧
      (∀ s ∈ b.shocks, ∀ x, s.isVarOf x → ∃ v, SetsVar whRead.env.ops whRead.sq noValues s x v) ∧
      (∀ ω < 8, (0 : ℚ) ≤ 1 / 8) ∧ expect 8 (fun _ => (1 / 8 : ℚ)) (fun _ => 1) = 1 ∧
      (∀ k < (whFile.names "varexo").length, expect 8 (fun _ => (1 / 8 : ℚ)) (fun ω => whZ ω k) = 0) ∧
      ∀ j < (whFile.names "varexo").length, ∀ k < (whFile.names "varexo").length,
        FileCov whRead.env.ops whRead.sq whRead.env.sqrt (whFile.names "varexo") noValues b.shocks j k
          (expect 8 (fun _ => (1 / 8 : ℚ)) fun ω => whZ ω j * whZ ω k) := by
  obtain ⟨md, md', gy, gu, so, h1, h2, h3, h4⟩ := wh_second
  have hn : whFile.names "varexo" = ["u", "w"] := rfl
  refine ⟨md, md', gy, gu, so, chLa_exact, idealAd_exact, triQz_exact, fun _ _ => rfl, h1, wh_posed, h2, h3, h4, _, rfl,
    wh_shocks, ?_, fun _ _ => by norm_num, by decide +kernel, by decide +kernel, ?_⟩
  · intro s hs x hx
    simp only [List.mem_cons, List.not_mem_nil, or_false] at hs
    rcases hs with rfl | rfl <;> (obtain rfl := hx; exact ⟨_, .stderr .num rfl⟩)
  · intro j hj k hk
    rw [hn] at hj hk
    have e : ∀ j < 2, ∀ k < 2, (expect 8 (fun _ => (1 / 8 : ℚ)) fun ω => whZ ω j * whZ ω k) =
        if j = k then (if j = 0 then 1 else 1 / 2) else 0 := by decide +kernel
    rw [e j hj k hk]
    have hcase : (j = 0 ∨ j = 1) ∧ (k = 0 ∨ k = 1) := by
      simp only [List.length_cons, List.length_nil] at hj hk
      omega
    have nopair : ∀ x y, ∀ s ∈ [Shock.stderr "u" (.num 1), .stderr "w" (.num (1 / 2 : ℚ))], ¬ s.isPair x y ∧ ¬ s.isPair y x := by
      intro x y s hs
      simp only [List.mem_cons, List.not_mem_nil, or_false] at hs
      rcases hs with rfl | rfl <;> exact ⟨fun h => h, fun h => h⟩
    rcases hcase with ⟨rfl | rfl, rfl | rfl⟩
    · exact .var (x := "u") rfl rfl (.stated (s := .stderr "u" (.num 1)) (by simp) (.stderr .num rfl))
    · exact .none (x := "u") (y := "w") (by omega) rfl rfl (nopair _ _)
    · exact .none (x := "w") (y := "u") (by omega) rfl rfl (nopair _ _)
    · exact .var (x := "w") rfl rfl (.stated (s := .stderr "w" (.num (1 / 2))) (by simp) (.stderr .num rfl))

#print axioms C163_risk_text_partial
#print axioms C163_real_partial

end Pynare
