import Verif.Spec.Rewritten
import Verif.Lemmas.FileSolvable
import Verif.Lemmas.Order
/-!
# Lemmas about model files written with other equations
-/

namespace Pynare

set_option linter.unusedSectionVars false

variable {V : Type} [Field V] [LinearOrder V] [IsStrictOrderedRing V]

/-- only the levels of the variables and shocks of the file matter -/
theorem side_within {ops : Ops V} {m : ModelFile V} {σ : String → Option V} {L L' : Around V}
    (h1 : ∀ c < (m.names "var").length, L.before c = L'.before c ∧ L.now c = L'.now c ∧ L.after c = L'.after c)
    (h2 : ∀ k < (m.names "varexo").length, L.shock k = L'.shock k) {e : Expr V} {v : V}
    (h : SideValue ops m σ L e v) : SideValue ops m σ L' e v := by
  have lt : ∀ {l : List String} {c : Nat} {x : String}, l[c]? = some x → c < l.length := fun h =>
    (List.getElem?_eq_some_iff.mp h).1
  refine PEvals.congr h ?_ ?_
  · intro x _ v hv
    cases hv with
    | param h => exact .param h
    | endog h0 hc => rw [(h1 _ (lt hc)).2.1]; exact .endog h0 hc
    | shock h0 hc => rw [h2 _ (lt hc)]; exact .shock h0 hc
  · intro x o _ v hv
    cases hv with
    | before hc => rw [(h1 _ (lt hc)).1]; exact .before hc
    | after hc => rw [(h1 _ (lt hc)).2.2]; exact .after hc

theorem metWithin_within {ops : Ops V} {m : ModelFile V} {σ : String → Option V} {L L' : Around V}
    (h1 : ∀ c < (m.names "var").length, L.before c = L'.before c ∧ L.now c = L'.now c ∧ L.after c = L'.after c)
    (h2 : ∀ k < (m.names "varexo").length, L.shock k = L'.shock k) {η : V}
    (h : MetWithin ops m σ L η) : MetWithin ops m σ L' η := by
  intro l r hlr
  obtain ⟨w, ⟨u, v, a, b, c⟩, hw⟩ := h l r hlr
  exact ⟨w, ⟨u, v, side_within h1 h2 a, side_within h1 h2 b, c⟩, hw⟩

/-- all equations at once -/
theorem solves_uniform {ops : Ops V} {m : ModelFile V} {σ : String → Option V} {ss : List V} {d : Around V} :
    SolvesToFirstOrder ops m σ ss d ↔
      ∀ ε > 0, ∃ δ > 0, ∀ s, |s| ≤ δ → MetWithin ops m σ (levelsAt ss (d.scale s)) (ε * |s|) := by
  constructor
  · intro h ε hε
    have all : ∀ es : List (Expr V × Expr V), (∀ p ∈ es, p ∈ equations m.stmts) → ∃ δ > 0, ∀ s, |s| ≤ δ →
        ∀ p ∈ es, ∃ w, GapIs ops m σ (levelsAt ss (d.scale s)) p.1 p.2 w ∧ |w| ≤ ε * |s| := by
      intro es
      induction es with
      | nil => exact fun _ => ⟨1, one_pos, fun _ _ _ h => by cases h⟩
      | cons p es ih =>
        intro hes
        obtain ⟨δ₁, d1, h1⟩ := h p.1 p.2 (hes p (.head _)) ε hε
        obtain ⟨δ₂, d2, h2⟩ := ih fun q hq => hes q (.tail _ hq)
        refine ⟨min δ₁ δ₂, lt_min d1 d2, fun s hs q hq => ?_⟩
        rcases List.mem_cons.mp hq with rfl | hq
        · exact h1 s (hs.trans (min_le_left _ _))
        · exact h2 s (hs.trans (min_le_right _ _)) q hq
    obtain ⟨δ, hδ, h⟩ := all _ fun _ h => h
    exact ⟨δ, hδ, fun s hs l r hlr => h s hs (l, r) hlr⟩
  · intro h l r hlr ε hε
    obtain ⟨δ, hδ, h⟩ := h ε hε
    exact ⟨δ, hδ, fun s hs => h s hs l r hlr⟩

theorem exists_bound (f : String → V) (ns : List String) : ∃ B > 0, ∀ x ∈ ns, |f x| ≤ B := by
  induction ns with
  | nil => exact ⟨1, one_pos, fun _ h => by cases h⟩
  | cons n ns ih =>
    obtain ⟨B, hB, h⟩ := ih
    refine ⟨max B |f n|, lt_max_of_lt_left hB, fun x hx => ?_⟩
    rcases List.mem_cons.mp hx with rfl | hx
    · exact le_max_right _ _
    · exact (h x hx).trans (le_max_left _ _)

/-- levels given by name -/
theorem named_levels (m : ModelFile V) (a ym y yp u : String → V) (s : V) :
    (∀ c < (m.names "var").length,
      (levelsAt ((m.names "var").map a) ((named m ym y yp u).scale s)).before c =
        (named m (fun x => a x + s * ym x) (fun x => a x + s * y x) (fun x => a x + s * yp x) (fun x => s * u x)).before c ∧
      (levelsAt ((m.names "var").map a) ((named m ym y yp u).scale s)).now c =
        (named m (fun x => a x + s * ym x) (fun x => a x + s * y x) (fun x => a x + s * yp x) (fun x => s * u x)).now c ∧
      (levelsAt ((m.names "var").map a) ((named m ym y yp u).scale s)).after c =
        (named m (fun x => a x + s * ym x) (fun x => a x + s * y x) (fun x => a x + s * yp x) (fun x => s * u x)).after c) ∧
    ∀ k < (m.names "varexo").length, (levelsAt ((m.names "var").map a) ((named m ym y yp u).scale s)).shock k =
        (named m (fun x => a x + s * ym x) (fun x => a x + s * y x) (fun x => a x + s * yp x) (fun x => s * u x)).shock k := by
  refine ⟨fun c hc => ?_, fun k hk => ?_⟩
  · simp [levelsAt, named, Around.scale, byName, vecEntry, hc]
  · simp [levelsAt, named, Around.scale, byName]

/-- if the equations of one file imply those of another, they do so to first order -/
theorem ImpliesNear.solves {ops : Ops V} {m m' : ModelFile V} {σ σ' : String → Option V} {a : String → V}
    (h : ImpliesNear ops m σ m' σ' a) {ym y yp u : String → V}
    (hs : SolvesToFirstOrder ops m σ ((m.names "var").map a) (named m ym y yp u)) :
    SolvesToFirstOrder ops m' σ' ((m'.names "var").map a) (named m' ym y yp u) := by
  obtain ⟨K, δ₀, hδ₀, h⟩ := h
  rw [solves_uniform] at hs ⊢
  intro ε hε
  have hK : 0 < |K| + 1 := by positivity
  obtain ⟨δ₁, hδ₁, hs⟩ := hs (ε / (|K| + 1)) (by positivity)
  obtain ⟨B₁, b1, B1⟩ := exists_bound ym (m.names "var")
  obtain ⟨B₂, b2, B2⟩ := exists_bound y (m.names "var")
  obtain ⟨B₃, b3, B3⟩ := exists_bound yp (m.names "var")
  obtain ⟨B₄, b4, B4⟩ := exists_bound u (m.names "varexo")
  have hB : 0 < B₁ + B₂ + B₃ + B₄ := by positivity
  refine ⟨min δ₁ (δ₀ / (B₁ + B₂ + B₃ + B₄)), lt_min hδ₁ (by positivity), fun s hsl => ?_⟩
  have s1 : |s| ≤ δ₁ := hsl.trans (min_le_left _ _)
  have s2 : |s| * (B₁ + B₂ + B₃ + B₄) ≤ δ₀ := (le_div_iff₀ hB).mp (hsl.trans (min_le_right _ _))
  have small : ∀ {z B : V}, |z| ≤ B → B ≤ B₁ + B₂ + B₃ + B₄ → |s * z| ≤ δ₀ := by
    intro z B h1 h2
    rw [abs_mul]
    exact (mul_le_mul_of_nonneg_left (h1.trans h2) (abs_nonneg s)).trans s2
  obtain ⟨n1, n2⟩ := named_levels m a ym y yp u s
  obtain ⟨n1', n2'⟩ := named_levels m' a ym y yp u s
  have := h _ _ _ _ (fun x hx => by
      simp only [add_sub_cancel_left]
      exact ⟨small (B1 x hx) (by linarith), small (B2 x hx) (by linarith), small (B3 x hx) (by linarith)⟩)
    (fun x hx => small (B4 x hx) (by linarith)) _ (metWithin_within n1 n2 (hs s s1))
  intro l r hlr
  obtain ⟨w, g, hw⟩ := metWithin_within (fun c hc => ⟨(n1' c hc).1.symm, (n1' c hc).2.1.symm, (n1' c hc).2.2.symm⟩)
    (fun k hk => (n2' k hk).symm) this l r hlr
  refine ⟨w, g, hw.trans ?_⟩
  have e : ε / (|K| + 1) * (|K| + 1) = ε := div_mul_cancel₀ _ hK.ne'
  have p : 0 ≤ ε / (|K| + 1) * |s| := by positivity
  calc K * (ε / (|K| + 1) * |s|) ≤ (|K| + 1) * (ε / (|K| + 1) * |s|) :=
        mul_le_mul_of_nonneg_right ((le_abs_self K).trans (by linarith)) p
    _ = ε * |s| := by rw [← mul_assoc, mul_comm (|K| + 1), e]

end Pynare
