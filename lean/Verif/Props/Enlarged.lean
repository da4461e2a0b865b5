import Verif.Spec.Enlarged
import Verif.Props.Rewritten
/-!
# C174: further variables with equations of their own
-/

namespace Pynare

set_option linter.unusedSectionVars false

variable {V : Type} [Field V] [LinearOrder V] [IsStrictOrderedRing V]

theorem Enlarges.side {ops : Ops V} {m m' : ModelFile V} {σ σ' : String → Option V} (h : Enlarges m σ m' σ')
    {ym y yp u : String → V} {e : Expr V} {v : V} (hv : ∀ x ∈ e.vars, UsedIn m' x)
    (hp : ∀ x o, (x, o) ∈ e.pvars → UsedIn m' x) (he : SideValue ops m σ (named m ym y yp u) e v) :
    SideValue ops m' σ' (named m' ym y yp u) e v := by
  refine PEvals.congr he (fun x hx v hn => ?_) (fun x o hx v hn => ?_)
  · have hu := hv x hx
    obtain ⟨k1, k2⟩ := h.kinds x hu
    cases hn with
    | param hs => exact .param (by rw [← h.values x hu, hs])
    | @endog c hs hc =>
      obtain ⟨c', hc'⟩ := List.getElem?_of_mem (k1 (List.mem_of_getElem? hc))
      have := NameNow.endog (σ := σ') (exo := m'.names "varexo") (L := named m' ym y yp u) (by rw [← h.values x hu]; exact hs) hc'
      simp only [named, byName_get hc', byName_get hc] at this ⊢
      exact this
    | @shock j hs hj =>
      obtain ⟨j', hj'⟩ := List.getElem?_of_mem (k2 (List.mem_of_getElem? hj))
      have := NameNow.shock (σ := σ') (endo := m'.names "var") (L := named m' ym y yp u) (by rw [← h.values x hu]; exact hs) hj'
      simp only [named, byName_get hj', byName_get hj] at this ⊢
      exact this
  · obtain ⟨k1, -⟩ := h.kinds x (hp x o hx)
    cases hn with
    | @before c hc =>
      obtain ⟨c', hc'⟩ := List.getElem?_of_mem (k1 (List.mem_of_getElem? hc))
      have := NameAt.before (L := named m' ym y yp u) hc'
      simp only [named, byName_get hc', byName_get hc] at this ⊢
      exact this
    | @after c hc =>
      obtain ⟨c', hc'⟩ := List.getElem?_of_mem (k1 (List.mem_of_getElem? hc))
      have := NameAt.after (L := named m' ym y yp u) hc'
      simp only [named, byName_get hc', byName_get hc] at this ⊢
      exact this

theorem Enlarges.implies {ops : Ops V} {m m' : ModelFile V} {σ σ' : String → Option V} (h : Enlarges m σ m' σ')
    (a : String → V) : ImpliesNear ops m σ m' σ' a := by
  refine ⟨1, 1, one_pos, fun ym y yp u _ _ η hg l r hlr => ?_⟩
  obtain ⟨w, ⟨p, q, hp, hq, e⟩, hw⟩ := hg l r (h.equations hlr)
  refine ⟨w, ⟨p, q, h.side (fun x hx => ⟨l, r, hlr, .inl hx⟩) (fun x o hx => ⟨l, r, hlr, .inr (.inr ⟨o, .inl hx⟩)⟩) hp,
    h.side (fun x hx => ⟨l, r, hlr, .inr (.inl hx)⟩) (fun x o hx => ⟨l, r, hlr, .inr (.inr ⟨o, .inr hx⟩)⟩) hq, e⟩, ?_⟩
  rwa [one_mul]

/-- whatever happened before, the solution says what the present values are -/
theorem policy_values {t : Typer} (hp : t.drOrder.Perm (List.range t.n)) (nExog : Nat) (gy gu : Arr V) {names : List String}
    (hn : names.Nodup) (hl : names.length = t.n) (ym u : Nat → V) :
    ∃ y : String → V, FollowsPolicy t nExog gy gu ym u (byName names y) := by
  have hd : t.drOrder.Nodup := hp.nodup_iff.mpr List.nodup_range
  refine ⟨fun x => (sumTo t.nBackward fun j => gy.e (t.drOrder.idxOf (names.idxOf x)) j *
        ym (t.drOrder[(t.permute t.drOrder).state[j]?.getD 0]?.getD 0)) +
      sumTo nExog fun k => gu.e (t.drOrder.idxOf (names.idxOf x)) k * u k, fun i c hi => ?_⟩
  have hc : c < names.length := by
    rw [hl]
    exact List.mem_range.mp (hp.mem_iff.mp (List.mem_of_getElem? hi))
  obtain ⟨hi1, hi2⟩ := List.getElem?_eq_some_iff.mp hi
  rw [byName_get (List.getElem?_eq_getElem hc), hn.idxOf_getElem, ← hi2, hd.idxOf_getElem]

/-- **C174** (partial: for files as in C161, each with exactly one steady state, the same one by name, whose state spaces
pass the check and have no eigenvalue of modulus one).  Adding variables and shocks with their equations to a file changes
neither the steady state nor the solution of the variables that were there: the values that the solution of the smaller
file relates are those that the solution of the larger one relates, with suitable values of the added variables. -/
theorem C174_enlarged_partial {SS S : Type} (φ : V →+* ℂ) (r : ReadEnv V SS S) (lib lib' : Libs V) (ex : lib.la.Exact)
    (ex' : lib'.la.Exact) (had : lib.ad.Exact) (had' : lib'.ad.Exact) (hopt : FindsMinimum lib.opt)
    (hopt' : FindsMinimum lib'.opt) (hsub : ∀ a b, r.env.ops.bin .sub a b = .ok (a - b)) {text text' : List Char}
    {m m' : ModelFile V} (hw : WellPosed m) (hw' : WellPosed m') {ρ σ ρ' σ' : String → Option V}
    (hσ : FileVals r.env.ops m ρ σ) (hσ' : FileVals r.env.ops m' ρ' σ') (hen : Enlarges m σ m' σ') {a : String → V}
    (hone : OneRest r.env.ops m σ a) (hone' : OneRest r.env.ops m' σ' a)
    {md md₁ md' md₁' : MState V (ModelSpace V) (Arr V × Arr V)}
    (h : ReadFrom (r.first lib) text m ρ md) (h' : ReadFrom (r.first lib') text' m' ρ' md')
    {gy gu gy' gu' : Arr V} (hsol : md.solve (r.env.first lib) = (md₁, .ok (gy, gu)))
    (hsol' : md'.solve (r.env.first lib') = (md₁', .ok (gy', gu')))
    (hc : PassesCheck φ lib.la md) (hc' : PassesCheck φ lib'.la md') :
    md.statespace.steady = (m.names "var").map a ∧ md'.statespace.steady = (m'.names "var").map a ∧
    ∀ ym u y : String → V,
      FollowsPolicy md'.indexes.toTyper (m'.names "varexo").length gy' gu' (byName (m'.names "var") ym)
          (byName (m'.names "varexo") u) (byName (m'.names "var") y) ↔
        ∃ y₁ : String → V, (∀ x ∈ m'.names "var", y₁ x = y x) ∧
          FollowsPolicy md.indexes.toTyper (m.names "varexo").length gy gu (byName (m.names "var") ym)
            (byName (m.names "varexo") u) (byName (m.names "var") y₁) := by
  obtain ⟨_, _, _, -, ss, hm⟩ := read_solved hopt hsub hw hσ hone h hsol hc
  obtain ⟨_, _, _, -, ss', hm'⟩ := read_solved hopt' hsub hw' hσ' hone' h' hsol' hc'
  obtain ⟨_, _, _, hp, hd⟩ := hm.determinate had
  obtain ⟨_, _, _, hp', hd'⟩ := hm'.determinate had'
  have pm := (groups (hd.det ex).1.cur).perm
  have pm' := (groups (hd'.det ex').1.cur).perm
  have key := C167_implied_partial φ r lib lib' ex ex' had had' hopt hopt' hsub hw hw' hσ hσ' hone hone' h h' hsol hsol' hc hc'
    hen.vars hen.shocks (hen.implies a)
  refine ⟨ss, ss', fun ym u y => ⟨fun hy => ?_, ?_⟩⟩
  · obtain ⟨y₁, h1⟩ := policy_values pm (m.names "varexo").length gy gu hm.plain.distinct (by omega)
      (byName (m.names "var") ym) (byName (m.names "varexo") u)
    refine ⟨y₁, fun x hx => ?_, h1⟩
    have h2 := key ym u y₁ h1
    obtain ⟨c, hx⟩ := List.getElem?_of_mem hx
    have hcl : c < (m'.names "var").length := (List.getElem?_eq_some_iff.mp hx).1
    obtain ⟨i, hi⟩ := List.getElem?_of_mem (pm'.mem_iff.mpr (List.mem_range.mpr (show c < md'.indexes.n by omega)))
    have := (h2 i c hi).trans (hy i c hi).symm
    rwa [byName_get hx, byName_get hx] at this
  · rintro ⟨y₁, e, h1⟩
    refine followsPolicy_congr pm' (key ym u y₁ h1) (fun _ _ => rfl) (fun _ _ => rfl) fun c hcl => ?_
    have hl : c < (m'.names "var").length := by omega
    have hx := List.getElem?_eq_getElem hl
    rw [byName_get hx, byName_get hx, e _ (List.getElem_mem hl)]

#print axioms C174_enlarged_partial

end Pynare
