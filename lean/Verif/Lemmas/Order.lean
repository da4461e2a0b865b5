import Verif.Spec.Order
import Verif.Props.Index
import Verif.Props.Exprs
import Verif.Props.Derivs
import Verif.Props.Stability
/-!
# Lemmas about models written in another order
-/

namespace Pynare

variable {V : Type}

set_option linter.unusedSectionVars false

/-! ### the tables of the two models -/

/-- the table of a plain model comes from sets of periods -/
theorem PlainModel.periods {σ : String → Option V} {endo exo : List String} {es : List (Expr V)} {t : Llx}
    (h : PlainModel σ endo exo es) (ht : modelLlx endo es = .ok t) :
    ∃ pss : List (List Int), pss.length = endo.length ∧ buildLlx pss = .ok t ∧
      (∀ ps ∈ pss, 0 ∈ ps ∧ ∀ p ∈ ps, p = -1 ∨ p = 0 ∨ p = 1) ∧ t.n = endo.length ∧
      ∀ (r c : Nat) x, r < 3 → endo[c]? = some x →
        ((∃ k, t.cell r c = some k) ↔ ∃ e ∈ es, OccursAt x ((r : Int) - 1) e) := by
  obtain ⟨d, h1, h2, h3⟩ := readLeadLags_spec endo es h.noCmp
  have hmem : ∀ x ∈ endo, ∀ p, p ∈ (d.get? x).getD [] ↔ ∃ e ∈ es, OccursAt x p e := by
    intro x hx p
    have := h3 x p
    constructor
    · intro h
      refine (this.mp ?_).2
      cases hd : d.get? x with
      | none => rw [hd] at h; simp at h
      | some s => rw [hd] at h; exact ⟨s, hd, h⟩
    · intro h
      obtain ⟨s, hs, hps⟩ := this.mpr ⟨hx, h⟩
      rw [hs]; exact hps
  have hps : ∀ ps ∈ endo.map fun x => (d.get? x).getD [], 0 ∈ ps ∧ ∀ p ∈ ps, p = -1 ∨ p = 0 ∨ p = 1 := by
    intro ps hps
    obtain ⟨x, hx, rfl⟩ := List.mem_map.mp hps
    refine ⟨(hmem x hx 0).mpr (h.current x hx), fun p hp => ?_⟩
    obtain ⟨e, he, ho⟩ := (hmem x hx p).mp hp
    exact h.std x hx p e he ho
  have hb : buildLlx (endo.map fun x => (d.get? x).getD []) = .ok t := by
    simpa [modelLlx, h1, bind, Except.bind] using ht
  obtain ⟨t', ht', g1, g2, -, -⟩ := C28_numbering _
    (fun ps hp h0 => by have := (hps ps hp).1; rw [h0] at this; simp at this) (fun ps hp => (hps ps hp).2)
  rw [hb] at ht'
  cases ht'
  refine ⟨_, by simp, hb, hps, by simpa using g1, ?_⟩
  intro r c x hr hc
  have := g2 c _ ((r : Int) - 1) (by rw [List.getElem?_map, hc]; rfl) (by omega)
  rw [show ((r : Int) - 1 + 1).toNat = r by omega] at this
  rw [this, hmem x (List.mem_of_getElem? hc)]

/-- positions of the same argument in the two vectors of arguments -/
def SameArg (endo exo endo' exo' : List String) (t t' : Llx) (k k' : Nat) : Prop :=
  (∃ (r c c' : Nat) (x : String), endo[c]? = some x ∧ endo'[c']? = some x ∧ t.cell r c = some k ∧
    t'.cell r c' = some k') ∨
  ∃ (j j' : Nat) (x : String), exo[j]? = some x ∧ exo'[j']? = some x ∧ k = t.count + j ∧ k' = t'.count + j'

theorem SameArg.symm {endo exo endo' exo' : List String} {t t' : Llx} {k k' : Nat}
    (h : SameArg endo exo endo' exo' t t' k k') : SameArg endo' exo' endo exo t' t k' k := by
  rcases h with ⟨r, c, c', x, h1, h2, h3, h4⟩ | ⟨j, j', x, h1, h2, h3, h4⟩
  · exact .inl ⟨r, c', c, x, h2, h1, h4, h3⟩
  · exact .inr ⟨j', j, x, h2, h1, h4, h3⟩

/-- two tables for the same variables in different order -/
structure Layouts (endo exo endo' exo' : List String) (t t' : Llx) : Prop where
  nodup : endo.Nodup
  nodup' : endo'.Nodup
  nodupx : exo.Nodup
  nodupx' : exo'.Nodup
  perm : endo'.Perm endo
  permx : exo'.Perm exo
  build : ∃ pss, buildLlx pss = .ok t
  build' : ∃ pss, buildLlx pss = .ok t'
  size : t.n = endo.length
  size' : t'.n = endo'.length
  same : ∀ (r c c' : Nat) x, endo[c]? = some x → endo'[c']? = some x →
    ((∃ k, t.cell r c = some k) ↔ ∃ k, t'.cell r c' = some k)

namespace Layouts

variable {endo exo endo' exo' : List String} {t t' : Llx}

theorem symm (h : Layouts endo exo endo' exo' t t') : Layouts endo' exo' endo exo t' t :=
  ⟨h.nodup', h.nodup, h.nodupx', h.nodupx, h.perm.symm, h.permx.symm, h.build', h.build, h.size', h.size,
    fun r c c' x h1 h2 => (h.same r c' c x h2 h1).symm⟩

theorem cell_lt (h : Layouts endo exo endo' exo' t t') {r c k : Nat} (hk : t.cell r c = some k) :
    r < 3 ∧ c < endo.length ∧ k < t.count := by
  obtain ⟨pss, hb⟩ := h.build
  obtain ⟨h1, h2, -, -, h5⟩ := buildLlx_spec hb
  obtain ⟨a, b⟩ := h2 r c k hk
  have := h.size
  exact ⟨a, by omega, (h5 k).mpr ⟨r, c, hk⟩⟩

theorem cell_inj (h : Layouts endo exo endo' exo' t t') {r c k r' c' : Nat} (hk : t.cell r c = some k)
    (hk' : t.cell r' c' = some k) : r = r' ∧ c = c' := by
  obtain ⟨pss, hb⟩ := h.build
  obtain ⟨-, -, -, h4, -⟩ := buildLlx_spec hb
  have a := h4 r c k r' c' k hk hk'
  have b := h4 r' c' k r c k hk' hk
  simp only [Nat.lt_irrefl, false_iff] at a b
  omega

theorem other (h : Layouts endo exo endo' exo' t t') {c : Nat} (hc : c < endo.length) :
    ∃ (c' : Nat) (x : String), endo[c]? = some x ∧ endo'[c']? = some x := by
  have : endo[c] ∈ endo' := h.perm.mem_iff.mpr (List.getElem_mem hc)
  obtain ⟨c', hc'⟩ := List.getElem?_of_mem this
  exact ⟨c', endo[c], List.getElem?_eq_getElem hc, hc'⟩

theorem total (h : Layouts endo exo endo' exo' t t') {k : Nat} (hk : k < t.count + exo.length) :
    ∃ k', k' < t'.count + exo'.length ∧ SameArg endo exo endo' exo' t t' k k' := by
  by_cases hkc : k < t.count
  · obtain ⟨pss, hb⟩ := h.build
    obtain ⟨-, -, -, -, h5⟩ := buildLlx_spec hb
    obtain ⟨r, c, hc⟩ := (h5 k).mp hkc
    obtain ⟨c', x, h1, h2⟩ := h.other (h.cell_lt hc).2.1
    obtain ⟨k', hk'⟩ := (h.same r c c' x h1 h2).mp ⟨k, hc⟩
    exact ⟨k', Nat.lt_of_lt_of_le (h.symm.cell_lt hk').2.2 (Nat.le_add_right ..), .inl ⟨r, c, c', x, h1, h2, hc, hk'⟩⟩
  · have hj : k - t.count < exo.length := by omega
    have : exo[k - t.count] ∈ exo' := h.permx.mem_iff.mpr (List.getElem_mem hj)
    obtain ⟨j', hj'⟩ := List.getElem?_of_mem this
    have hl : j' < exo'.length := (List.getElem?_eq_some_iff.mp hj').1
    exact ⟨t'.count + j', by omega, .inr ⟨k - t.count, j', _, List.getElem?_eq_getElem hj, hj', by omega, rfl⟩⟩

theorem nodup_get {l : List String} (h : l.Nodup) {i j : Nat} {x : String} (hi : l[i]? = some x)
    (hj : l[j]? = some x) : i = j := by
  obtain ⟨a, ha⟩ := List.getElem?_eq_some_iff.mp hi
  obtain ⟨b, hb⟩ := List.getElem?_eq_some_iff.mp hj
  exact (List.Nodup.getElem_inj_iff h).mp (ha.trans hb.symm)

theorem unique (h : Layouts endo exo endo' exo' t t') {k k' l' : Nat}
    (h1 : SameArg endo exo endo' exo' t t' k k') (h2 : SameArg endo exo endo' exo' t t' k l') : k' = l' := by
  rcases h1 with ⟨r, c, c', x, a1, a2, a3, a4⟩ | ⟨j, j', x, a1, a2, a3, a4⟩ <;>
  rcases h2 with ⟨r2, c2, c2', x2, b1, b2, b3, b4⟩ | ⟨j2, j2', x2, b1, b2, b3, b4⟩
  · obtain ⟨rfl, rfl⟩ := h.cell_inj a3 b3
    rw [a1] at b1
    cases b1
    have := nodup_get h.nodup' a2 b2
    subst this
    rw [a4] at b4
    exact Option.some.inj b4
  · have := (h.cell_lt a3).2.2; omega
  · have := (h.cell_lt b3).2.2; omega
  · have : j = j2 := by omega
    subst this
    rw [a1] at b1
    cases b1
    have := nodup_get h.nodupx' a2 b2
    omega

/-- where the argument at place `k` is in the other vector -/
noncomputable def place (h : Layouts endo exo endo' exo' t t') (k : Nat) : Nat :=
  open Classical in if hk : k < t.count + exo.length then (h.total hk).choose else 0

theorem place_spec (h : Layouts endo exo endo' exo' t t') {k : Nat} (hk : k < t.count + exo.length) :
    h.place k < t'.count + exo'.length ∧ SameArg endo exo endo' exo' t t' k (h.place k) := by
  unfold place
  rw [dif_pos hk]
  exact (h.total hk).choose_spec

theorem place_eq (h : Layouts endo exo endo' exo' t t') {k k' : Nat} (hk : k < t.count + exo.length)
    (hs : SameArg endo exo endo' exo' t t' k k') : h.place k = k' := h.unique (h.place_spec hk).2 hs

theorem place_back (h : Layouts endo exo endo' exo' t t') {k : Nat} (hk : k < t.count + exo.length) :
    h.symm.place (h.place k) = k :=
  h.symm.place_eq (h.place_spec hk).1 (h.place_spec hk).2.symm

theorem sum_places [AddCommMonoid V] (h : Layouts endo exo endo' exo' t t') (f : Nat → V) :
    sumTo (t.count + exo.length) (fun k => f (h.place k)) = sumTo (t'.count + exo'.length) f := by
  rw [sumTo_eq, sumTo_eq]
  refine Finset.sum_nbij' h.place h.symm.place ?_ ?_ ?_ ?_ fun _ _ => rfl
  · intro k hk; exact Finset.mem_range.mpr (h.place_spec (Finset.mem_range.mp hk)).1
  · intro k hk; exact Finset.mem_range.mpr (h.symm.place_spec (Finset.mem_range.mp hk)).1
  · intro k hk; exact h.place_back (Finset.mem_range.mp hk)
  · intro k hk; exact h.symm.place_back (Finset.mem_range.mp hk)

/-- the vector of arguments of the first model for that of the second -/
noncomputable def relay [Zero V] (h : Layouts endo exo endo' exo' t t') (vec' : List V) : List V :=
  (List.range (t.count + exo.length)).map fun k => (vec'[h.place k]?).getD 0

theorem relay_length [Zero V] (h : Layouts endo exo endo' exo' t t') (vec' : List V) :
    (h.relay vec').length = t.count + exo.length := by simp [relay]

theorem relay_get [Zero V] (h : Layouts endo exo endo' exo' t t') {vec' : List V}
    (hl : vec'.length = t'.count + exo'.length) {k k' : Nat} (hs : SameArg endo exo endo' exo' t t' k k')
    (hk : k < t.count + exo.length) : (h.relay vec')[k]? = vec'[k']? := by
  have e := h.place_eq hk hs
  have := (h.place_spec hk).1
  unfold relay
  rw [List.getElem?_map, List.getElem?_range hk, Option.map_some, e,
    List.getElem?_eq_getElem (by omega), Option.getD_some]

end Layouts

/-! ### the residual functions -/

theorem pEvals_mono {ops : Ops V} {P P' : String → V → Prop} {Q Q' : String → Int → V → Prop} {e : Expr V} {v : V}
    (h : PEvals ops P Q e v) (hP : ∀ x ∈ e.vars, ∀ v, P x v → P' x v)
    (hQ : ∀ x o, (x, o) ∈ e.pvars → ∀ v, Q x o v → Q' x o v) : PEvals ops P' Q' e v := by
  induction h with
  | num => exact .num
  | var h => exact .var (hP _ (by simp [Expr.vars]) _ h)
  | pvar h => exact .pvar (hQ _ _ (by simp [Expr.pvars]) _ h)
  | un _ h2 ih => exact .un (ih (fun x hx => hP x (by simpa [Expr.vars] using hx))
      (fun x o hx => hQ x o (by simpa [Expr.pvars] using hx))) h2
  | bin _ _ h3 ih1 ih2 =>
    exact .bin
      (ih1 (fun x hx => hP x (by simp [Expr.vars, hx])) (fun x o hx => hQ x o (by simp [Expr.pvars, hx])))
      (ih2 (fun x hx => hP x (by simp [Expr.vars, hx])) (fun x o hx => hQ x o (by simp [Expr.pvars, hx]))) h3
  | cmp _ _ h3 ih1 ih2 =>
    exact .cmp
      (ih1 (fun x hx => hP x (by simp [Expr.vars, hx])) (fun x o hx => hQ x o (by simp [Expr.pvars, hx])))
      (ih2 (fun x hx => hP x (by simp [Expr.vars, hx])) (fun x o hx => hQ x o (by simp [Expr.pvars, hx]))) h3
  | fn h1 _ h3 ih => exact .fn h1 (ih (fun x hx => hP x (by simpa [Expr.vars] using hx))
      (fun x o hx => hQ x o (by simpa [Expr.pvars] using hx))) h3

namespace Layouts

variable {endo exo endo' exo' : List String} {t t' : Llx}

theorem readsAt [Zero V] (h : Layouts endo exo endo' exo' t t') {vec' : List V}
    (hl : vec'.length = t'.count + exo'.length) {x : String} {o : Int} {v : V}
    (hr : ReadsAt endo t.toTyper (h.relay vec') x o v) : ReadsAt endo' t'.toTyper vec' x o v := by
  obtain ⟨c, k, h1, h2, h3⟩ := hr
  have hc := h.cell_lt h2
  obtain ⟨c', x', e1, e2⟩ := h.other hc.2.1
  rw [h1] at e1
  cases e1
  obtain ⟨k', hk'⟩ := (h.same _ c c' x h1 e2).mp ⟨k, h2⟩
  refine ⟨c', k', e2, hk', ?_⟩
  rw [← h.relay_get hl (.inl ⟨_, c, c', x, h1, e2, h2, hk'⟩) (by omega)]
  exact h3

theorem readsVar [Zero V] (h : Layouts endo exo endo' exo' t t') {vec' : List V}
    (hl : vec'.length = t'.count + exo'.length) {σ : String → Option V} {x : String} {v : V}
    (hr : ReadsVar σ endo exo t (h.relay vec') x v) : ReadsVar σ endo' exo' t' vec' x v := by
  cases hr with
  | param h1 => exact .param h1
  | endog h1 h2 => exact .endog h1 (h.readsAt hl h2)
  | shock h1 h2 h3 =>
    rename_i j
    have hj : j < exo.length := (List.getElem?_eq_some_iff.mp h2).1
    have : x ∈ exo' := h.permx.mem_iff.mpr (List.mem_of_getElem? h2)
    obtain ⟨j', hj'⟩ := List.getElem?_of_mem this
    refine .shock (j := j') h1 hj' ?_
    rw [← h.relay_get hl (.inr ⟨j, j', x, h2, hj', rfl, rfl⟩) (by omega)]
    exact h3

theorem relay_back [Zero V] (h : Layouts endo exo endo' exo' t t') {vec' : List V}
    (hl : vec'.length = t'.count + exo'.length) : h.symm.relay (h.relay vec') = vec' := by
  apply List.ext_getElem?
  intro k'
  by_cases hk : k' < t'.count + exo'.length
  · have hs := h.symm.place_spec hk
    rw [h.symm.relay_get (h.relay_length vec') hs.2 hk]
    exact h.relay_get hl hs.2.symm hs.1
  · rw [List.getElem?_eq_none (by rw [relay_length]; omega), List.getElem?_eq_none (by omega)]

end Layouts

/-- the layouts of two models with the same equations -/
theorem layouts_of {σ : String → Option V} {endo exo endo' exo' : List String} {es es' : List (Expr V)}
    {t t' : Llx} (h : PlainModel σ endo exo es) (ht : modelLlx endo es = .ok t)
    (h' : PlainModel σ endo' exo' es') (ht' : modelLlx endo' es' = .ok t')
    (pe : endo'.Perm endo) (px : exo'.Perm exo) (pq : es'.Perm es) : Layouts endo exo endo' exo' t t' := by
  obtain ⟨pss, -, hb, -, hn, hc⟩ := h.periods ht
  obtain ⟨pss', -, hb', -, hn', hc'⟩ := h'.periods ht'
  refine ⟨h.distinct, h'.distinct, h.shocks, h'.shocks, pe, px, ⟨_, hb⟩, ⟨_, hb'⟩, hn, hn', ?_⟩
  intro r c c' x h1 h2
  by_cases hr : r < 3
  · rw [hc r c x hr h1, hc' r c' x hr h2]
    constructor
    · rintro ⟨e, he, ho⟩; exact ⟨e, pq.mem_iff.mpr he, ho⟩
    · rintro ⟨e, he, ho⟩; exact ⟨e, pq.mem_iff.mp he, ho⟩
  · constructor
    · rintro ⟨k, hk⟩; exact absurd ((buildLlx_spec hb).2.1 r c k hk).1 hr
    · rintro ⟨k, hk⟩; exact absurd ((buildLlx_spec hb').2.1 r c' k hk).1 hr

/-- the residual function of an equation depends on the arguments, not on their places -/
theorem residual_relay [Zero V] {ops : Ops V} {okName okName' : String → Bool} {σ : String → Option V}
    {endo exo endo' exo' : List String} {es es' : List (Expr V)}
    {t t' : Llx} (h : PlainModel σ endo exo es) (ht : modelLlx endo es = .ok t)
    (h' : PlainModel σ endo' exo' es') (ht' : modelLlx endo' es' = .ok t')
    (L : Layouts endo exo endo' exo' t t') {e : Expr V} (he : e ∈ es) (he' : e ∈ es')
    {f f' : List V → Except Err V} (hf : dynamicFunc ops okName endo exo t.toTyper σ e = .ok f)
    (hf' : dynamicFunc ops okName' endo' exo' t'.toTyper σ e = .ok f') {vec' : List V}
    (hl : vec'.length = t'.count + exo'.length) (v : V) : f (L.relay vec') = .ok v → f' vec' = .ok v := by
  obtain ⟨l, r, rfl⟩ := h.form e he
  rw [C33_dynamic_residual_partial ops okName endo exo es t σ ht h.noCmp h.std he
      (fun x hx => h.names _ he x (by simpa [Expr.vars] using hx))
      (fun x o hx => h.offsets _ he x o (by simpa [Expr.pvars] using hx)) hf (L.relay_length vec') v,
    C33_dynamic_residual_partial ops okName' endo' exo' es' t' σ ht' h'.noCmp h'.std he'
      (fun x hx => h'.names _ he' x (by simpa [Expr.vars] using hx))
      (fun x o hx => h'.offsets _ he' x o (by simpa [Expr.pvars] using hx)) hf' hl v]
  rintro ⟨a, b, h1, h2, h3⟩
  exact ⟨a, b, pEvals_mono h1 (fun _ _ _ => L.readsVar hl) (fun _ _ _ _ => L.readsAt hl),
    pEvals_mono h2 (fun _ _ _ => L.readsVar hl) (fun _ _ _ _ => L.readsAt hl), h3⟩

/-! ### derivatives -/

section deriv
variable [Field V] [LinearOrder V] [IsStrictOrderedRing V]

theorem isDeriv_relay {endo exo endo' exo' : List String} {t t' : Llx} (L : Layouts endo exo endo' exo' t t')
    {f f' : List V → Except Err V} {p p' : List V} {g : Nat → V}
    (hp : p.length = t.count + exo.length) (hp' : p'.length = t'.count + exo'.length)
    (hpp : L.relay p' = p)
    (hff : ∀ vec' : List V, vec'.length = t'.count + exo'.length → ∀ v, f (L.relay vec') = .ok v → f' vec' = .ok v)
    (hd : IsDerivAt f p g) : IsDerivAt f' p' (fun k' => g (L.symm.place k')) := by
  obtain ⟨v₀, h0, hd⟩ := hd
  refine ⟨v₀, hff p' hp' v₀ (by rw [hpp]; exact h0), ?_⟩
  intro ε hε
  obtain ⟨δ, hδ, hd⟩ := hd ε hε
  refine ⟨δ, hδ, fun r hr hrδ x' hx' => ?_⟩
  have hxl : x'.length = t'.count + exo'.length := hx'.1.trans hp'
  have hent : ∀ k < t.count + exo.length, ∀ w' : List V, w'.length = t'.count + exo'.length →
      vecEntry (L.relay w') k = vecEntry w' (L.place k) := by
    intro k hk w' hw
    unfold vecEntry
    rw [L.relay_get hw (L.place_spec hk).2 hk]
  obtain ⟨v, hv, hb⟩ := hd r hr hrδ (L.relay x') ⟨by rw [L.relay_length, hp], fun k hk => by
    rw [hp] at hk
    rw [hent k hk x' hxl, ← hpp, hent k hk p' hp']
    exact hx'.2 _ (by rw [hp']; exact (L.place_spec hk).1)⟩
  refine ⟨v, hff x' hxl v hv, le_trans (le_of_eq ?_) hb⟩
  congr 2
  rw [hp, hp', ← L.sum_places]
  refine sumTo_congr fun k hk => ?_
  show g (L.symm.place (L.place k)) * _ = _
  rw [L.place_back hk, hent k hk x' hxl, ← hpp, hent k hk p' hp']

/-- **the jacobians of two models with the same equations** hold the same derivatives -/
theorem jacobian_relay {ops : Ops V} {okName okName' : String → Bool} {ad ad' : Autograd V} (hex : ad.Exact)
    (hex' : ad'.Exact) {σ : String → Option V} {endo exo endo' exo' : List String} {es es' : List (Expr V)}
    {ss ss' : List V} {t t' : Llx} {J J' : Arr V}
    (h : JacobianOf ops okName ad σ endo exo es ss t J) (h' : JacobianOf ops okName' ad' σ endo' exo' es' ss' t' J')
    (L : Layouts endo exo endo' exo' t t') (hss : SameByName endo endo' (vecEntry ss) (vecEntry ss'))
    {i i' : Nat} {e : Expr V} (hi : es[i]? = some e) (hi' : es'[i']? = some e) {k k' : Nat}
    (hk : k < t.count + exo.length) (hs : SameArg endo exo endo' exo' t t' k k') : J.e i k = J'.e i' k' := by
  obtain ⟨fs, hfs, hJ⟩ := h.jacobian
  obtain ⟨fs', hfs', hJ'⟩ := h'.jacobian
  obtain ⟨pss, -, hb, -⟩ := h.plain.periods h.table
  obtain ⟨pss', -, hb', -⟩ := h'.plain.periods h'.table
  obtain ⟨f, hf, hf2⟩ := (dynamicFuncs_get hfs).2 i e hi
  obtain ⟨f', hf', hf2'⟩ := (dynamicFuncs_get hfs').2 i' e hi'
  have d := (C109_jacobian ad hex hb _ fs ss J hJ).2.2 i f hf
  have d' := (C109_jacobian ad' hex' hb' _ fs' ss' J' hJ').2.2 i' f' hf'
  have hlp := linPoint_length hb exo.length ss
  have hlp' := linPoint_length hb' exo'.length ss'
  have hpp : L.relay (linPoint t'.toTyper exo'.length ss') = linPoint t.toTyper exo.length ss := by
    apply List.ext_getElem?
    intro m
    by_cases hm : m < t.count + exo.length
    · have hpl := L.place_spec hm
      rw [L.relay_get hlp' hpl.2 hm, List.getElem?_eq_getElem (by omega), List.getElem?_eq_getElem (by omega)]
      have ent : ∀ (l : List V) (a : Nat) (ha : a < l.length), l[a] = vecEntry l a := by
        intro l a ha; unfold vecEntry; rw [List.getElem?_eq_getElem ha]; rfl
      rw [ent, ent]
      congr 1
      rcases hpl.2 with ⟨r, c, c', x, a1, a2, a3, a4⟩ | ⟨j, j', x, a1, a2, a3, a4⟩
      · rw [linPoint_endog hb' _ _ a4, linPoint_endog hb _ _ a3]
        exact (hss c c' x a1 a2).symm
      · rw [a4, a3, linPoint_shock hb' _ (List.getElem?_eq_some_iff.mp a2).1,
          linPoint_shock hb _ (List.getElem?_eq_some_iff.mp a1).1]
    · rw [List.getElem?_eq_none (by rw [L.relay_length]; omega), List.getElem?_eq_none (by omega)]
  have d2 := isDeriv_relay L hlp hlp' hpp (fun vec' hl v => residual_relay h.plain h.table h'.plain h'.table L
    (List.mem_of_getElem? hi) (List.mem_of_getElem? hi') hf2 hf2' hl v) d
  have hk' : k' < t'.count + exo'.length := by
    rw [← L.place_eq hk hs]; exact (L.place_spec hk).1
  have := isDeriv_unique d2 d' k' (by rw [hlp']; exact hk')
  rw [← this, L.symm.place_eq hk' hs.symm]

end deriv

/-! ### the linearised equations -/

theorem sum_sameByName [AddCommMonoid V] {names names' : List String} (h : names.Nodup)
    (p : names'.Perm names) {f f' : Nat → V} (hf : SameByName names names' f f') :
    sumTo names.length f = sumTo names'.length f' := by
  have key : ∀ (l : List String) (g : Nat → V), l.Nodup →
      sumTo l.length g = (l.map fun x => g (l.idxOf x)).sum := by
    intro l g hl
    have : l.map (fun x => g (l.idxOf x)) = (List.range l.length).map g := by
      apply List.ext_getElem
      · simp
      · intro i h1 h2
        simp only [List.getElem_map, List.getElem_range]
        rw [hl.idxOf_getElem]
    rw [this]
    generalize l.length = n
    induction n with
    | zero => rfl
    | succ n ih => rw [sumTo, ih, List.range_succ, List.map_append, List.sum_append]; simp
  rw [key names f h, key names' f' (p.symm.nodup h)]
  refine Eq.trans ?_ (p.map fun x => f' (names'.idxOf x)).sum_eq.symm
  congr 1
  apply List.map_congr_left
  intro x hx
  have hx' := p.mem_iff.mpr hx
  exact hf _ _ x (List.getElem?_idxOf hx) (List.getElem?_idxOf hx')

theorem byName_get {names : List String} {a : String → V} {i : Nat} {x : String} (h : names[i]? = some x) :
    byName names a i = a x := by simp [byName, h]

section lin
variable [Field V] [LinearOrder V] [IsStrictOrderedRing V]

theorem linearised_relay {ops : Ops V} {okName okName' : String → Bool} {ad ad' : Autograd V} (hex : ad.Exact)
    (hex' : ad'.Exact) {σ : String → Option V} {endo exo endo' exo' : List String} {es es' : List (Expr V)}
    {ss ss' : List V} {t t' : Llx} {J J' : Arr V}
    (h : JacobianOf ops okName ad σ endo exo es ss t J) (h' : JacobianOf ops okName' ad' σ endo' exo' es' ss' t' J')
    (L : Layouts endo exo endo' exo' t t') (hss : SameByName endo endo' (vecEntry ss) (vecEntry ss'))
    {i i' : Nat} {e : Expr V} (hi : es[i]? = some e) (hi' : es'[i']? = some e) (ym y yp u : String → V) :
    linearised t exo.length J i (byName endo ym) (byName endo y) (byName endo yp) (byName exo u) =
      linearised t' exo'.length J' i' (byName endo' ym) (byName endo' y) (byName endo' yp) (byName exo' u) := by
  have hrow : ∀ (r : Nat) (w : String → V), rowPart t.toTyper J i r (byName endo w) =
      rowPart t'.toTyper J' i' r (byName endo' w) := by
    intro r w
    unfold rowPart
    rw [L.size, L.size']
    refine sum_sameByName L.nodup L.perm ?_
    intro c c' x hc hc'
    have hsame := L.same r c c' x hc hc'
    show (match t.cell r c with
      | some k => J.e i k * byName endo w c
      | none => 0) = match t'.cell r c' with
      | some k => J'.e i' k * byName endo' w c'
      | none => 0
    cases hk : t.cell r c with
    | none =>
      cases hk' : t'.cell r c' with
      | none => rfl
      | some k' => obtain ⟨k, h2⟩ := hsame.mpr ⟨k', hk'⟩; rw [hk] at h2; cases h2
    | some k =>
      obtain ⟨k', hk'⟩ := hsame.mp ⟨k, hk⟩
      rw [hk']
      simp only
      rw [byName_get hc, byName_get hc', jacobian_relay hex hex' h h' L hss hi hi'
        (Nat.lt_of_lt_of_le (L.cell_lt hk).2.2 (Nat.le_add_right ..)) (.inl ⟨r, c, c', x, hc, hc', hk, hk'⟩)]
  unfold linearised
  rw [hrow, hrow, hrow]
  congr 1
  refine sum_sameByName L.nodupx L.permx ?_
  intro j j' x hj hj'
  have hjl : j < exo.length := (List.getElem?_eq_some_iff.mp hj).1
  show J.e i (t.count + j) * byName exo u j = J'.e i' (t'.count + j') * byName exo' u j'
  rw [byName_get hj, byName_get hj', jacobian_relay hex hex' h h' L hss hi hi' (by omega)
    (.inr ⟨j, j', x, hj, hj', rfl, rfl⟩)]

end lin

/-! ### policy functions -/

section policy
variable [Field V]

theorem linearised_within {t : Llx} {m : Nat} {J : Arr V} {i : Nat} {ym y yp u ym' y' yp' u' : Nat → V}
    (h1 : ∀ c < t.n, ym c = ym' c) (h2 : ∀ c < t.n, y c = y' c) (h3 : ∀ c < t.n, yp c = yp' c)
    (h4 : ∀ k < m, u k = u' k) : linearised t m J i ym y yp u = linearised t m J i ym' y' yp' u' := by
  have hr : ∀ r (a b : Nat → V), (∀ c < t.n, a c = b c) → rowPart t.toTyper J i r a = rowPart t.toTyper J i r b := by
    intro r a b h
    unfold rowPart
    exact sumTo_congr fun c hc => by rw [h c hc]
  unfold linearised
  rw [hr _ _ _ h1, hr _ _ _ h2, hr _ _ _ h3]
  congr 1
  exact sumTo_congr fun k hk => by rw [h4 k hk]

theorem followsPolicy_congr {t : Typer} (hp : t.drOrder.Perm (List.range t.n)) {nExog : Nat} {gy gu : Arr V}
    {ym u y ym' u' y' : Nat → V} (h : FollowsPolicy t nExog gy gu ym u y)
    (h1 : ∀ c < t.n, ym c = ym' c) (h2 : ∀ k < nExog, u k = u' k) (h3 : ∀ c < t.n, y c = y' c) :
    FollowsPolicy t nExog gy gu ym' u' y' := by
  have hmem : ∀ c, c ∈ t.drOrder → c < t.n := fun c hc => List.mem_range.mp (hp.mem_iff.mp hc)
  intro i c hi
  rw [← h3 c (hmem c (List.mem_of_getElem? hi)), h i c hi]
  congr 1
  · refine sumTo_congr fun j hj => ?_
    have hr := drState_row hp hj
    show gy.e i j * ym (t.drOrder[stRow t j]?.getD 0) = gy.e i j * ym' (t.drOrder[stRow t j]?.getD 0)
    rw [hr, Option.getD_some, h1 _ (hmem _ (List.mem_of_getElem? hr))]
  · exact sumTo_congr fun k hk => by rw [h2 k hk]

/-- If the equations of one model, met by some path, imply those of another, met by the path in other order,
then so do the policy functions. -/
theorem policy_implies {φ : V →+* ℂ} {la la' : LinAlg V} (ex : la.Exact) (ex' : la'.Exact)
    {pss pss' : List (List Int)} {t t' : Llx} {m m' : Nat} {J gy gu J' gy' gu' : Arr V} {s s' : Space V}
    {q q' : QZ V} {ev ev' : Nat → Option ℂ} (h : Determinate φ la pss t m J gy gu s q ev)
    (h' : Determinate φ la' pss' t' m' J' gy' gu' s' q' ev') (π ρ : Nat → Nat)
    (hπ : ∀ c < pss'.length, π c < pss.length) (hρ : ∀ k < m', ρ k < m)
    (heq : ∀ ym y yp u : Nat → V, (∀ i < J.r, linearised t m J i ym y yp u = 0) →
      ∀ i < J'.r, linearised t' m' J' i (fun c => ym (π c)) (fun c => y (π c)) (fun c => yp (π c))
        (fun k => u (ρ k)) = 0)
    {ym u y : Nat → V} (hy : FollowsPolicy t.toTyper m gy gu ym u y) :
    FollowsPolicy t'.toTyper m' gy' gu' (fun c => ym (π c)) (fun k => u (ρ k)) (fun c => y (π c)) := by
  obtain ⟨hd, -⟩ := h.det ex
  obtain ⟨-, g2, -⟩ := solution_rows ex hd.cur hd.static hd.square hd.space (hd.separated ex) hd.solved
  have hp := (groups hd.cur).perm
  let z : Nat → Nat → V := devFirst t.toTyper gy (fun _ _ => 0) y
  let Y : Nat → Nat → V := fun τ => match τ with
    | 0 => ym
    | τ + 1 => z τ
  let U : Nat → Nat → V := fun τ => if τ = 0 then u else 0
  have hU : ∀ τ, 0 < τ → U τ = 0 := fun τ h0 => by simp [U, show τ ≠ 0 by omega]
  have hf : ∀ τ, FollowsPolicy t.toTyper m gy gu (Y τ) (U τ) (Y (τ + 1)) := by
    intro τ
    cases τ with
    | zero => exact hy
    | succ τ =>
      rw [hU (τ + 1) (by omega)]
      refine stepFirst_follows hp ?_ fun i _ => ?_
      · rw [g2]; exact (drState_length hp).1.symm
      · rw [sumTo_eq]; simp
  obtain ⟨e1, B, e2⟩ := (C145_unique_partial φ la ex pss t m J gy gu s q ev h Y U
    (fun τ h0 k _ => by rw [hU τ h0]; rfl)).mp hf
  have := (C145_unique_partial φ la' ex' pss' t' m' J' gy' gu' s' q' ev' h' (fun τ c => Y τ (π c))
    (fun τ k => U τ (ρ k)) (fun τ h0 k _ => by rw [hU τ h0]; rfl)).mpr
    ⟨fun τ i hi => heq _ _ _ _ (e1 τ) i hi, B, fun τ c hc => e2 τ _ (hπ c hc)⟩ 0
  exact this

end policy

section solved
variable [Field V] [LinearOrder V] [IsStrictOrderedRing V]

theorem SolvedModel.determinate {φ : V →+* ℂ} {ops : Ops V} {okName : String → Bool} {ad : Autograd V}
    (hex : ad.Exact) {la : LinAlg V} {σ : String → Option V} {endo exo : List String} {es : List (Expr V)}
    {ss : List V} {t : Llx} {J gy gu : Arr V} {s : Space V} {q : QZ V} {ev : Nat → Option ℂ}
    (h : SolvedModel φ ops okName ad la σ endo exo es ss t J gy gu s q ev) :
    J.r = es.length ∧ t.n = endo.length ∧ ∃ pss : List (List Int), pss.length = endo.length ∧
      Determinate φ la pss t exo.length J gy gu s q ev := by
  obtain ⟨pss, h1, h2, h3, h4, -⟩ := h.plain.periods h.table
  obtain ⟨fs, hfs, hJ⟩ := h.jacobian
  have hr := (C109_jacobian ad hex h2 _ fs ss J hJ).1
  have hl := (dynamicFuncs_get hfs).1
  have hsq := h.plain.square
  exact ⟨by omega, h4, pss, h1, h3, h2, by omega, h.space, h.solved, h.verified, h.decomposed, h.eigen, h.noUnit⟩

/-- one direction of C149 -/
theorem solved_implies {φ : V →+* ℂ} {ops : Ops V} {okName okName' : String → Bool} {ad ad' : Autograd V}
    (hex : ad.Exact) (hex' : ad'.Exact) {la la' : LinAlg V} (ex : la.Exact) (ex' : la'.Exact)
    {σ : String → Option V} {endo exo endo' exo' : List String} {es es' : List (Expr V)}
    {ss ss' : List V} {t t' : Llx} {J gy gu J' gy' gu' : Arr V} {s s' : Space V} {q q' : QZ V}
    {ev ev' : Nat → Option ℂ}
    (h : SolvedModel φ ops okName ad la σ endo exo es ss t J gy gu s q ev)
    (h' : SolvedModel φ ops okName' ad' la' σ endo' exo' es' ss' t' J' gy' gu' s' q' ev')
    (pe : endo'.Perm endo) (px : exo'.Perm exo) (pq : es'.Perm es)
    (hss : SameByName endo endo' (vecEntry ss) (vecEntry ss')) (ym u y : String → V)
    (hy : FollowsPolicy t.toTyper exo.length gy gu (byName endo ym) (byName exo u) (byName endo y)) :
    FollowsPolicy t'.toTyper exo'.length gy' gu' (byName endo' ym) (byName exo' u) (byName endo' y) := by
  have L := layouts_of h.plain h.table h'.plain h'.table pe px pq
  obtain ⟨hr, hn, pss, hp, hd⟩ := h.determinate hex
  obtain ⟨hr', hn', pss', hp', hd'⟩ := h'.determinate hex'
  have hlt : ∀ {l l' : List String}, l'.Perm l → ∀ i < l'.length, l.idxOf (l'[i]?.getD "") < l.length := by
    intro l l' p i hi
    rw [List.getElem?_eq_getElem hi, Option.getD_some]
    exact List.idxOf_lt_length_iff.mpr (p.mem_iff.mp (List.getElem_mem hi))
  have hback : ∀ {l l' : List String} (a : String → V), l'.Perm l → ∀ i < l'.length,
      byName l a (l.idxOf (l'[i]?.getD "")) = byName l' a i := by
    intro l l' a p i hi
    have hm : l'[i] ∈ l := p.mem_iff.mp (List.getElem_mem hi)
    rw [byName_get (List.getElem?_eq_getElem hi), List.getElem?_eq_getElem hi, Option.getD_some,
      byName_get (List.getElem?_idxOf hm)]
  have := policy_implies ex ex' hd hd' (fun c => endo.idxOf (endo'[c]?.getD "")) (fun k => exo.idxOf (exo'[k]?.getD ""))
    (fun c hc => by rw [hp]; exact hlt pe c (by omega)) (fun k hk => hlt px k hk) (by
      intro ym y yp u heq i hi
      have hi' : i < es'.length := by omega
      have hm : es'[i] ∈ es := pq.mem_iff.mp (List.getElem_mem hi')
      obtain ⟨i0, hi0⟩ := List.getElem?_of_mem hm
      have hi0l : i0 < es.length := (List.getElem?_eq_some_iff.mp hi0).1
      have key : ∀ {l : List String} (w : Nat → V), l.Nodup → ∀ c < l.length, byName l (fun x => w (l.idxOf x)) c = w c := by
        intro l w hl c hc
        rw [byName_get (List.getElem?_eq_getElem hc), hl.idxOf_getElem]
      have e := linearised_relay hex hex' h.toJacobianOf h'.toJacobianOf L hss hi0 (List.getElem?_eq_getElem hi')
        (fun x => ym (endo.idxOf x)) (fun x => y (endo.idxOf x)) (fun x => yp (endo.idxOf x)) (fun x => u (exo.idxOf x))
      have e0 := heq i0 (by omega)
      refine Eq.trans e.symm (Eq.trans ?_ e0)
      exact linearised_within (fun c hc => key ym h.plain.distinct c (by omega))
        (fun c hc => key y h.plain.distinct c (by omega)) (fun c hc => key yp h.plain.distinct c (by omega))
        (fun k hk => key u h.plain.shocks k hk)) hy
  obtain ⟨hdd, -⟩ := hd'.det ex'
  exact followsPolicy_congr (groups hdd.cur).perm this (fun c hc => hback ym pe c (by omega))
    (fun k hk => hback u px k hk) (fun c hc => hback y pe c (by omega))

end solved

end Pynare
