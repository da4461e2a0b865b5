import Verif.Lemmas.Renamed
/-! # Lemmas about residual functions and tables in other names -/

namespace Pynare

variable {V SS S : Type} {φ : String → String} {N : String → Prop}

/-! ### tables of leads and lags -/

/-- a table in other names -/
def RenTable {α : Type} (φ : String → String) (N : String → Prop) (d d' : Dict α) : Prop :=
  d' = d.rename φ id ∧ ∀ x ∈ d.keys, N x

theorem RenTable.get {α : Type} (hi : InjOn φ N) {d d' : Dict α} (h : RenTable φ N d d') {x : String} (hx : N x) :
    d'.get? (φ x) = d.get? x := by
  rw [h.1, Dict.get?_rename hi id h.2 hx, Option.map_id, id]

theorem RenTable.set {α : Type} (hi : InjOn φ N) {d d' : Dict α} (h : RenTable φ N d d') {x : String} (hx : N x) (v : α) :
    RenTable φ N (d.set x v) (d'.set (φ x) v) :=
  ⟨by rw [h.1, Dict.set_rename hi id h.2 hx]; rfl, keys_set_in h.2 hx v⟩

theorem countAdd_rename (hi : InjOn φ N) {es : List String} (he : ∀ x ∈ es, N x) {d d' : Dict (List Int)}
    (h : RenTable φ N d d') {x : String} (hx : N x) (p : Int) :
    RenTable φ N (countAdd es d x p) (countAdd (es.map φ) d' (φ x) p) := by
  unfold countAdd
  simp only [mem_map_inj hi he hx, h.get hi hx]
  split
  · exact h.set hi hx _
  · exact h

theorem countPeriods_rename (hi : InjOn φ N) {es : List String} (he : ∀ x ∈ es, N x) (e : Expr V)
    (hn : ∀ x ∈ e.names, N x) : ∀ d d' : Dict (List Int), RenTable φ N d d' →
    SameOutcome (RenTable φ N) (countPeriods es d e) (countPeriods (es.map φ) d' (e.rename φ)) := by
  induction e with
  | num => exact fun d d' h => .ok h
  | var x => exact fun d d' h => .ok (countAdd_rename hi he h (hn x (by simp [Expr.names, Expr.vars])) 0)
  | pvar x o => exact fun d d' h => .ok (countAdd_rename hi he h (hn x (by simp [Expr.names, Expr.pvars])) o)
  | cmp => exact fun d d' h => .error
  | un op e ih => exact ih hn
  | fn f e ih => exact ih hn
  | bin op l r ihl ihr =>
    intro d d' h
    refine (ihl (fun x hx => hn x ((names_bin op l r x).mpr (.inl hx))) d d' h).bind fun a b _ _ hab => ?_
    exact ihr (fun x hx => hn x ((names_bin op l r x).mpr (.inr hx))) a b hab

theorem mergeCounts_rename (hi : InjOn φ N) : ∀ (c : Dict (List Int)), (∀ x ∈ c.keys, N x) → ∀ d d' : Dict (List Int),
    RenTable φ N d d' → SameOutcome (RenTable φ N) (mergeCounts d c) (mergeCounts d' (c.rename φ id))
  | [], _, d, d', h => .ok h
  | (x, ps) :: c, hc, d, d', h => by
    have hx : N x := hc x (by simp [Dict.keys])
    have hc' : ∀ y ∈ Dict.keys c, N y := fun y hy => hc y (by
      simp only [Dict.keys, List.map_cons, List.mem_cons] at hy ⊢; exact .inr hy)
    show SameOutcome _ (match d.get? x with | some s => _ | none => _)
      (match d'.get? (φ x) with | some s => _ | none => _)
    rw [h.get hi hx]
    cases d.get? x with
    | none => exact .error
    | some s => exact mergeCounts_rename hi c hc' _ _ (h.set hi hx _)

theorem readLoop_rename (hi : InjOn φ N) {es : List String} (he : ∀ x ∈ es, N x) : ∀ (xs : List (Expr V)),
    (∀ e ∈ xs, ∀ x ∈ e.names, N x) → ∀ d d' : Dict (List Int), RenTable φ N d d' →
    SameOutcome (RenTable φ N) (readLoop es d xs) (readLoop (es.map φ) d' (xs.map (Expr.rename φ)))
  | [], _, d, d', h => .ok h
  | e :: xs, hx, d, d', h => by
    refine (countPeriods_rename hi he e (hx e (by simp)) [] [] ⟨rfl, by simp [Dict.keys]⟩).bind fun c c' _ _ hc => ?_
    rw [hc.1]
    refine (mergeCounts_rename hi c hc.2 d d' h).bind fun a b _ _ hab => ?_
    exact readLoop_rename hi he xs (fun y hy => hx y (by simp [hy])) a b hab

theorem fromKeys_rename (hi : InjOn φ N) {es : List String} (he : ∀ x ∈ es, N x) :
    RenTable φ N (fromKeys es) (fromKeys (es.map φ)) := by
  unfold fromKeys
  rw [List.foldl_map]
  suffices ∀ d d' : Dict (List Int), RenTable φ N d d' →
      RenTable φ N (es.foldl (fun d x => d.set x []) d) (es.foldl (fun d x => d.set (φ x) []) d') from
    this [] [] ⟨rfl, by simp [Dict.keys]⟩
  induction es with
  | nil => exact fun d d' h => h
  | cons x es ih =>
    intro d d' h
    exact ih (fun y hy => he y (by simp [hy])) _ _ (h.set hi (he x (by simp)) _)

theorem readLeadLags_rename (hi : InjOn φ N) {es : List String} (he : ∀ x ∈ es, N x) {xs : List (Expr V)}
    (hx : ∀ e ∈ xs, ∀ x ∈ e.names, N x) :
    SameOutcome (RenTable φ N) (readLeadLags es xs) (readLeadLags (es.map φ) (xs.map (Expr.rename φ))) :=
  readLoop_rename hi he xs hx _ _ (fromKeys_rename hi he)

/-! ### substitution -/

/-- the suffixes the code puts behind names -/
abbrev suffixes : List String := ["", "m1", "p1"]

/-- names with suffixes -/
def cat (q : String × String) : String := q.1 ++ q.2

/-- a name with a suffix, in other names -/
def catRen (φ : String → String) (q : String × String) : String := φ q.1 ++ q.2

/-- all of `N`, with a proper suffix -/
def OccIn (N : String → Prop) (os : List (String × String)) : Prop := ∀ q ∈ os, N q.1 ∧ q.2 ∈ suffixes

/-- a tree with the names recorded, in other names -/
def RenPair (φ : String → String) (N : String → Prop) (p p' : Expr V × List String) : Prop :=
  p'.1 = p.1.rename φ ∧ (∀ x ∈ p.1.names, N x) ∧
  ∃ os, OccIn N os ∧ p.2 = os.map cat ∧ p'.2 = os.map (catRen φ)

theorem mbGen_rename {σ σ' : String → Option V} {τ τ' : String → Int → Option V} {sf : Int → String}
    (hσ : ∀ x, N x → σ' (φ x) = σ x) (hτ : ∀ x o, N x → τ' (φ x) o = τ x o) (hs : ∀ o, sf o ∈ suffixes) (e : Expr V)
    (hn : ∀ x ∈ e.names, N x) :
    RenPair φ N (mbGen σ τ (fun x o => x ++ sf o) e) (mbGen σ' τ' (fun x o => x ++ sf o) (e.rename φ)) := by
  cases e with
  | var x =>
    have hx : N x := hn x (by simp [Expr.names, Expr.vars])
    simp only [Expr.rename, mbGen, hσ x hx]
    cases σ x with
    | some v => exact ⟨rfl, by simp [Expr.names, Expr.vars, Expr.pvars], [], by intro q hq; simp at hq, rfl, rfl⟩
    | none =>
      refine ⟨rfl, hn, [(x, "")], ?_, ?_, ?_⟩
      · intro q hq; simp only [List.mem_singleton] at hq; subst hq; exact ⟨hx, by simp⟩
      · simp [cat]
      · simp [catRen]
  | pvar x o =>
    have hx : N x := hn x (by simp [Expr.names, Expr.pvars])
    simp only [Expr.rename, mbGen, hτ x o hx]
    cases τ x o with
    | some v => exact ⟨rfl, by simp [Expr.names, Expr.vars, Expr.pvars], [], by intro q hq; simp at hq, rfl, rfl⟩
    | none =>
      refine ⟨rfl, hn, [(x, sf o)], ?_, ?_, ?_⟩
      · intro q hq; simp only [List.mem_singleton] at hq; subst hq; exact ⟨hx, hs o⟩
      · simp [cat]
      · simp [catRen]
  | _ => exact ⟨rfl, hn, [], by intro q hq; simp at hq, rfl, rfl⟩

theorem OccIn.append {a b : List (String × String)} (ha : OccIn N a) (hb : OccIn N b) : OccIn N (a ++ b) := by
  intro q hq
  rcases List.mem_append.mp hq with h | h
  · exact ha q h
  · exact hb q h

theorem subTree_rename {σ σ' : String → Option V} {τ τ' : String → Int → Option V} {sf : Int → String}
    (hσ : ∀ x, N x → σ' (φ x) = σ x) (hτ : ∀ x o, N x → τ' (φ x) o = τ x o) (hs : ∀ o, sf o ∈ suffixes) (e : Expr V)
    (hn : ∀ x ∈ e.names, N x) :
    SameOutcome (RenPair φ N) (subTree (mbGen σ τ (fun x o => x ++ sf o)) e)
      (subTree (mbGen σ' τ' (fun x o => x ++ sf o)) (e.rename φ)) := by
  induction e with
  | num => exact .ok ⟨rfl, hn, [], by intro q hq; simp at hq, rfl, rfl⟩
  | var => exact .ok ⟨rfl, hn, [], by intro q hq; simp at hq, rfl, rfl⟩
  | pvar => exact .ok ⟨rfl, hn, [], by intro q hq; simp at hq, rfl, rfl⟩
  | cmp => exact .error
  | un op e ih =>
    refine (ih hn).bind fun p p' _ _ hp => ?_
    obtain ⟨h1, h2, os, h3, h4, h5⟩ := hp
    obtain ⟨g1, g2, os', g3, g4, g5⟩ := mbGen_rename hσ hτ hs p.1 h2
    rw [h1]
    refine .ok ⟨by simp only [g1, Expr.rename], g2, os ++ os', h3.append g3, ?_, ?_⟩
    · simp only [h4, g4, List.map_append]
    · simp only [h5, g5, List.map_append]
  | bin op l r ihl ihr =>
    refine (ihl fun x hx => hn x ((names_bin op l r x).mpr (.inl hx))).bind fun p p' _ _ hp => ?_
    refine (ihr fun x hx => hn x ((names_bin op l r x).mpr (.inr hx))).bind fun q q' _ _ hq => ?_
    obtain ⟨h1, h2, os, h3, h4, h5⟩ := hp
    obtain ⟨k1, k2, ks, k3, k4, k5⟩ := hq
    obtain ⟨g1, g2, os', g3, g4, g5⟩ := mbGen_rename hσ hτ hs p.1 h2
    obtain ⟨j1, j2, ks', j3, j4, j5⟩ := mbGen_rename hσ hτ hs q.1 k2
    rw [h1, k1]
    refine .ok ⟨by simp only [g1, j1, Expr.rename], fun x hx => ?_, os ++ ks ++ (os' ++ ks'),
      (h3.append k3).append (g3.append j3), ?_, ?_⟩
    · rcases (names_bin _ _ _ x).mp hx with h | h
      · exact g2 x h
      · exact j2 x h
    · simp only [h4, g4, k4, j4, List.map_append]
    · simp only [h5, g5, k5, j5, List.map_append]
  | fn f e ih =>
    obtain ⟨g1, g2, os, g3, g4, g5⟩ := mbGen_rename hσ hτ hs e hn
    have ih := ih hn
    show SameOutcome _ (match mbGen σ τ (fun x o => x ++ sf o) e with | (.num v, ns) => _ | (_, ns) => _)
      (match mbGen σ' τ' (fun x o => x ++ sf o) (e.rename φ) with | (.num v, ns) => _ | (_, ns) => _)
    revert g1 g2 g4 g5 ih
    generalize mbGen σ τ (fun x o => x ++ sf o) e = a
    generalize mbGen σ' τ' (fun x o => x ++ sf o) (e.rename φ) = b
    obtain ⟨a1, a2⟩ := a
    obtain ⟨b1, b2⟩ := b
    intro g1 g2 g4 g5 ih
    simp only at g1 g2 g4 g5
    subst g1
    cases a1 with
    | num v => exact .ok ⟨rfl, g2, os, g3, g4, g5⟩
    | _ =>
      refine ih.bind fun p p' _ _ hp => ?_
      obtain ⟨h1, h2, os', h3, h4, h5⟩ := hp
      refine .ok ⟨by simp only [h1, Expr.rename], h2, os ++ os', g3.append h3, ?_, ?_⟩
      · simp only [h4, g4, List.map_append]
      · simp only [h5, g5, List.map_append]

/-! ### evaluation -/

theorem evalP_rename {ops : Ops V} {lv lv' : String → Except Err V} {lp lp' : String → Int → Except Err V} {e : Expr V}
    (hn : ∀ x ∈ e.names, N x) (hv : ∀ x, N x → lv' (φ x) = lv x) (hp : ∀ x o, N x → lp' (φ x) o = lp x o) :
    evalP ops lv' lp' (e.rename φ) = evalP ops lv lp e := by
  induction e with
  | num => rfl
  | var x => exact hv x (hn x (by simp [Expr.names, Expr.vars]))
  | pvar x o => exact hp x o (hn x (by simp [Expr.names, Expr.pvars]))
  | un op e ih => simp only [Expr.rename, evalP, ih hn]
  | fn f e ih => simp only [Expr.rename, evalP, ih hn]
  | bin op l r ihl ihr =>
    simp only [Expr.rename, evalP, ihl fun x hx => hn x ((names_bin op l r x).mpr (.inl hx)),
      ihr fun x hx => hn x ((names_bin op l r x).mpr (.inr hx))]
  | cmp op l r ihl ihr =>
    simp only [Expr.rename, evalP, ihl fun x hx => hn x ((names_cmp op l r x).mpr (.inl hx)),
      ihr fun x hx => hn x ((names_cmp op l r x).mpr (.inr hx))]

/-- different names with suffixes stay different -/
theorem KeepsApart.cat {ok : String → Bool} (h : KeepsApart φ N ok) {p q : String × String} (hp : N p.1 ∧ p.2 ∈ suffixes)
    (hq : N q.1 ∧ q.2 ∈ suffixes) : catRen φ p = catRen φ q ↔ Pynare.cat p = Pynare.cat q :=
  h.apart p.1 q.1 hp.1 hq.1 p.2 hp.2 q.2 hq.2

/-- the values by name, in other names -/
def RenVals (φ : String → String) (N : String → Prop) (d d' : Dict V) : Prop :=
  ∀ q : String × String, N q.1 ∧ q.2 ∈ suffixes → d'.get? (catRen φ q) = d.get? (cat q)

theorem pickVals_rename {ok : String → Bool} (hk : KeepsApart φ N ok) {os : List (String × String)} (ho : OccIn N os) :
    ∀ (L : List (String × String)), OccIn N L → ∀ (vs : List V) (d d' : Dict V), RenVals φ N d d' →
    SameOutcome (RenVals φ N) (pickVals (os.map cat) d (L.map cat) vs)
      (pickVals (os.map (catRen φ)) d' (L.map (catRen φ)) vs)
  | [], _, vs, d, d', h => .ok h
  | q :: L, hL, vs, d, d', h => by
    have hq := hL q (by simp)
    have hL' : OccIn N L := fun p hp => hL p (by simp [hp])
    have hm : catRen φ q ∈ os.map (catRen φ) ↔ cat q ∈ os.map cat := by
      simp only [List.mem_map]
      constructor
      · rintro ⟨p, hp, e⟩; exact ⟨p, hp, (hk.cat (ho p hp) hq).mp e⟩
      · rintro ⟨p, hp, e⟩; exact ⟨p, hp, (hk.cat (ho p hp) hq).mpr e⟩
    cases vs with
    | nil =>
      simp only [List.map_cons, pickVals, hm]
      split
      · exact .error
      · exact pickVals_rename hk ho L hL' [] d d' h
    | cons v vs =>
      simp only [List.map_cons, pickVals, hm]
      refine pickVals_rename hk ho L hL' vs _ _ ?_
      split
      · intro p hp
        rw [Dict.get?_set, Dict.get?_set, h p hp]
        simp only [hk.cat hq hp]
      · exact h

theorem modelSignature_rename {ok : String → Bool} (hk : KeepsApart φ N ok) {L : List (String × String)} (hL : OccIn N L) :
    modelSignature ok (L.map (catRen φ)) = modelSignature ok (L.map cat) := by
  have h1 : (L.map (catRen φ)).all ok = (L.map cat).all ok := by
    simp only [List.all_map]
    rw [Bool.eq_iff_iff, List.all_eq_true, List.all_eq_true]
    exact forall₂_congr fun q hq => by
      simp only [Function.comp_apply, catRen, cat, hk.legal q.1 (hL q hq).1 q.2 (hL q hq).2]
  have h2 : (L.map (catRen φ)).Nodup ↔ (L.map cat).Nodup := by
    unfold List.Nodup
    rw [List.pairwise_map, List.pairwise_map]
    constructor
    · exact fun h => h.imp_of_mem fun {a b} ha hb hab e => hab ((hk.cat (hL a ha) (hL b hb)).mpr e)
    · exact fun h => h.imp_of_mem fun {a b} ha hb hab e => hab ((hk.cat (hL a ha) (hL b hb)).mp e)
  unfold modelSignature
  simp only [h1, h2]

theorem offsetName_eq : offsetName = fun x o => x ++ (if o > 0 then "p1" else "m1") := by
  funext x o; unfold offsetName; split <;> rfl

theorem steadyFunc_rename [Zero V] {ok : String → Bool} (hk : KeepsApart φ N ok) {ops : Ops V} {es : List String}
    (he : ∀ x ∈ es, N x) {σ σ' : String → Option V} (hσ : ∀ x, N x → σ' (φ x) = σ x) {e : Expr V}
    (hn : ∀ x ∈ e.names, N x) :
    steadyFunc ops ok (es.map φ) σ' (e.rename φ) = steadyFunc ops ok es σ e := by
  have hE : OccIn N (es.map fun x => (x, "")) := by
    intro q hq; obtain ⟨x, hx, rfl⟩ := List.mem_map.mp hq; exact ⟨he x hx, by simp⟩
  have e1 : (es.map fun x => (x, "")).map cat = es := by
    simp [List.map_map, Function.comp_def, cat]
  have e2 : (es.map fun x => (x, "")).map (catRen φ) = es.map φ := by
    simp [List.map_map, Function.comp_def, catRen]
  have e3 : (fun (x : String) (_ : Int) => x) = fun x _ => x ++ "" := by funext x o; simp
  have hs := subTree_rename (sf := fun _ => "") (τ := fun x _ => σ x) (τ' := fun x _ => σ' x) hσ (fun x _ hx => hσ x hx) (by simp) e hn
  have hsig := modelSignature_rename hk hE
  rw [e1, e2] at hsig
  refine SameOutcome.to_eq ?_
  unfold steadyFunc
  rw [steadyMaybe_eq, steadyMaybe_eq, e3]
  refine hs.swap.bind fun p' p _ _ hp => ?_
  rw [hsig]
  refine (SameOutcome.of_eq rfl).bind fun _ _ _ _ _ => .ok ?_
  funext vs
  obtain ⟨h1, h2, os, h3, h4, h5⟩ := hp
  have hv := pickVals_rename hk h3 _ hE vs [] [] (fun q _ => rfl)
  rw [e1, e2] at hv
  unfold runSteady
  rw [h1, h4, h5]
  refine SameOutcome.to_eq ?_
  refine hv.swap.bind fun d' d _ _ hd => SameOutcome.of_eq ?_
  have hl : ∀ x, N x → steadyLook d' (φ x) = steadyLook d x := by
    intro x hx
    have := hd (x, "") ⟨hx, by simp⟩
    simp only [catRen, cat, String.append_empty] at this
    simp only [steadyLook, this]
  exact evalP_rename h2 hl fun x _ hx => hl x hx

theorem steadyFuncs_rename [Zero V] {ok : String → Bool} (hk : KeepsApart φ N ok) {ops : Ops V} {es : List String}
    (he : ∀ x ∈ es, N x) {σ σ' : String → Option V} (hσ : ∀ x, N x → σ' (φ x) = σ x) : ∀ {xs : List (Expr V)},
    (∀ e ∈ xs, ∀ x ∈ e.names, N x) →
    steadyFuncs ops ok (es.map φ) σ' (xs.map (Expr.rename φ)) = steadyFuncs ops ok es σ xs
  | [], _ => rfl
  | e :: xs, h => by
    simp only [List.map_cons, steadyFuncs, steadyFunc_rename hk he hσ (h e (by simp)),
      steadyFuncs_rename hk he hσ (fun y hy => h y (List.mem_cons_of_mem _ hy))]

theorem dynamicFunc_rename {ok : String → Bool} (hk : KeepsApart φ N ok) {ops : Ops V} {es xo : List String} {t : Typer}
    (he : ∀ x ∈ es, N x) (hx : ∀ x ∈ xo, N x) {σ σ' : String → Option V} (hσ : ∀ x, N x → σ' (φ x) = σ x) {e : Expr V}
    (hn : ∀ x ∈ e.names, N x) :
    dynamicFunc ops ok (es.map φ) (xo.map φ) t σ' (e.rename φ) = dynamicFunc ops ok es xo t σ e := by
  obtain ⟨L, hE, e1, e2⟩ : ∃ L, OccIn N L ∧ L.map cat = dynVars es xo t ∧ L.map (catRen φ) = dynVars (es.map φ) (xo.map φ) t := by
    refine ⟨(t.places.map fun p => (es[p.2]?.getD "", if p.1 = 0 then "m1" else if p.1 = 1 then "" else "p1")) ++
      xo.map fun x => (x, ""), ?_, ?_, ?_⟩
    · refine OccIn.append ?_ ?_
      · intro q hq; obtain ⟨p, hp, rfl⟩ := List.mem_map.mp hq
        refine ⟨?_, by simp only; split; · simp
                       · split <;> simp⟩
        cases h : es[p.2]? with
        | none => simpa [h] using hk.none
        | some y => simpa [h] using he y (List.mem_of_getElem? h)
      · intro q hq; obtain ⟨x, hx', rfl⟩ := List.mem_map.mp hq; exact ⟨hx x hx', by simp⟩
    · simp [dynVars, List.map_map, Function.comp_def, cat, suffixName]
    · simp only [dynVars, List.map_append, List.map_map, Function.comp_def, catRen, suffixName]
      congr 1
      · refine List.map_congr_left fun p _ => ?_
        cases h : es[p.2]? with
        | none => simp [h, hk.blank]
        | some y => simp [h]
      · simp
  have hs := subTree_rename (sf := fun o => if o > 0 then "p1" else "m1") (τ := fun _ _ => none) (τ' := fun _ _ => none) hσ
    (fun x _ hx => rfl) (by intro o; split <;> simp) e hn
  have hsig := modelSignature_rename hk hE
  rw [e1, e2] at hsig
  refine SameOutcome.to_eq ?_
  unfold dynamicFunc
  rw [dynMaybe_eq, dynMaybe_eq, offsetName_eq]
  refine hs.swap.bind fun p' p _ _ hp => ?_
  rw [hsig]
  refine (SameOutcome.of_eq rfl).bind fun _ _ _ _ _ => .ok ?_
  funext vs
  obtain ⟨h1, h2, os, h3, h4, h5⟩ := hp
  have hv := pickVals_rename hk h3 _ hE vs [] [] (fun q _ => rfl)
  rw [e1, e2] at hv
  unfold runDynamic
  rw [h1, h4, h5]
  refine SameOutcome.to_eq ?_
  refine hv.swap.bind fun d' d _ _ hd => SameOutcome.of_eq ?_
  refine evalP_rename h2 ?_ ?_
  · intro x hx
    have := hd (x, "") ⟨hx, by simp⟩
    simp only [catRen, cat, String.append_empty] at this
    simp only [dynLook, this]
  · intro x o hx
    have := hd (x, if o > 0 then "p1" else "m1") ⟨hx, by simp only; split <;> simp⟩
    simp only [catRen, cat] at this
    simp only [dynLook, offsetName_eq, this]

theorem dynamicFuncs_rename {ok : String → Bool} (hk : KeepsApart φ N ok) {ops : Ops V} {es xo : List String} {t : Typer}
    (he : ∀ x ∈ es, N x) (hx : ∀ x ∈ xo, N x) {σ σ' : String → Option V} (hσ : ∀ x, N x → σ' (φ x) = σ x) :
    ∀ {xs : List (Expr V)}, (∀ e ∈ xs, ∀ x ∈ e.names, N x) →
    dynamicFuncs ops ok (es.map φ) (xo.map φ) t σ' (xs.map (Expr.rename φ)) = dynamicFuncs ops ok es xo t σ xs
  | [], _ => rfl
  | e :: xs, h => by
    simp only [List.map_cons, dynamicFuncs, dynamicFunc_rename hk he hx hσ (h e (by simp)),
      dynamicFuncs_rename hk he hx hσ (fun y hy => h y (List.mem_cons_of_mem _ hy))]

/-! ### shocks -/

theorem makeAll_rename {α β γ δ : Type} {R : β → δ → Prop} {f : α → Except Err β} {g : γ → Except Err δ} {r : α → γ} :
    ∀ {xs : List α}, (∀ x ∈ xs, SameOutcome R (f x) (g (r x))) →
    SameOutcome (List.Forall₂ R) (makeAll f xs) (makeAll g (xs.map r))
  | [], _ => .ok .nil
  | x :: xs, h => (h x (by simp)).bind fun _ _ _ _ h1 =>
    (makeAll_rename fun y hy => h y (by simp [hy])).bind fun _ _ _ _ h2 => .ok (.cons h1 h2)

/-- a shock in other names -/
def RenStoch (φ : String → String) (N : String → Prop) (s s' : Stoch V) : Prop :=
  s' = s.rename φ ∧ N s.name ∧ N s.other

theorem MomentsIn.keys {d : Dict (Moments V)} (h : MomentsIn N d) : ∀ x ∈ d.keys, N x := by
  intro x hx
  obtain ⟨p, hp, rfl⟩ := List.mem_map.mp hx
  exact (h p hp).1

theorem makeStoch_rename [One V] {ok : String → Bool} (hk : KeepsApart φ N ok) {d : Dict (Moments V)} (hd : MomentsIn N d)
    {x : String} (hx : N x) :
    SameOutcome (RenStoch φ N) (makeStoch d x) (makeStoch (d.rename φ (Moments.rename φ)) (φ x)) := by
  unfold makeStoch
  rw [Dict.get?_rename hk.inj _ hd.keys hx]
  cases hg : d.get? x with
  | none => exact .ok ⟨by simp [Stoch.rename, hk.blank], hx, hk.none⟩
  | some m =>
    simp only [Option.map_some, Moments.rename]
    split
    · exact .error
    · refine .ok ⟨?_, hx, ?_⟩
      · cases h : m.other <;> simp [Stoch.rename, hk.blank]
      · cases h : m.other with
        | none => exact hk.none
        | some y => exact (hd (x, m) (Dict.mem_of_get? hg)).2 y h

/-- a deterministic variable in other names -/
def RenDeterm (φ : String → String) (N : String → Prop) (s s' : Determ V) : Prop := s' = s.rename φ ∧ N s.name

theorem makeDeterm_rename [One V] {ok : String → Bool} (hk : KeepsApart φ N ok) {d : Dict (Moments V)} (hd : MomentsIn N d)
    {x : String} (hx : N x) :
    SameOutcome (RenDeterm φ N) (makeDeterm d x) (makeDeterm (d.rename φ (Moments.rename φ)) (φ x)) := by
  unfold makeDeterm
  rw [Dict.get?_rename hk.inj _ hd.keys hx]
  cases hg : d.get? x with
  | none => exact .ok ⟨rfl, hx⟩
  | some m =>
    simp only [Option.map_some, Moments.rename, Option.isSome_map]
    split
    · exact .error
    · exact .ok ⟨rfl, hx⟩

theorem forall₂_rename {ss ss' : List (Stoch V)} (h : List.Forall₂ (RenStoch φ N) ss ss') :
    ss' = ss.map (Stoch.rename φ) ∧ ∀ s ∈ ss, N s.name ∧ N s.other := by
  induction h with
  | nil => exact ⟨rfl, by simp⟩
  | cons h1 _ ih =>
    refine ⟨by rw [ih.1, h1.1]; rfl, fun s hs => ?_⟩
    rcases List.mem_cons.mp hs with rfl | hs
    · exact h1.2
    · exact ih.2 s hs

theorem forall₂_determ {ss ss' : List (Determ V)} (h : List.Forall₂ (RenDeterm φ N) ss ss') :
    ss' = ss.map (Determ.rename φ) ∧ ∀ s ∈ ss, N s.name := by
  induction h with
  | nil => exact ⟨rfl, by simp⟩
  | cons h1 _ ih =>
    refine ⟨by rw [ih.1, h1.1]; rfl, fun s hs => ?_⟩
    rcases List.mem_cons.mp hs with rfl | hs
    · exact h1.2
    · exact ih.2 s hs

theorem whereName_rename (hi : InjOn φ N) {ss : List (Stoch V)} (h : ∀ s ∈ ss, N s.name ∧ N s.other) {x : String}
    (hx : N x) : whereName (ss.map (Stoch.rename φ)) (φ x) = whereName ss x := by
  unfold whereName
  rw [List.length_map]
  refine List.filter_congr fun i _ => ?_
  rw [List.getElem?_map]
  cases hs : ss[i]? with
  | none => rfl
  | some s =>
    have h1 := (h s (List.mem_of_getElem? hs)).1
    simp only [Option.map_some, Stoch.rename]
    rw [Bool.eq_iff_iff]
    simpa using hi s.name x h1 hx

theorem sigmaLoop_rename [Zero V] [Mul V] (hi : InjOn φ N) {sqrt : V → V} {ss : List (Stoch V)}
    (h : ∀ s ∈ ss, N s.name ∧ N s.other) (t : Nat) : sigmaLoop sqrt (ss.map (Stoch.rename φ)) t = sigmaLoop sqrt ss t := by
  induction t with
  | zero =>
    simp only [sigmaLoop]
    congr 1
    funext a b
    simp only [sigmaDiag, List.getElem?_map]
    cases ss[a]? <;> rfl
  | succ t ih =>
    simp only [sigmaLoop, ih, List.getElem?_map]
    cases sigmaLoop sqrt ss t with
    | error => rfl
    | ok sig =>
      simp only [exc_bind]
      cases hs : ss[t]? with
      | none => rfl
      | some s =>
        simp only [Option.map_some, sigmaStep]
        rw [show (s.rename φ).other = φ s.other from rfl, whereName_rename hi h (h s (List.mem_of_getElem? hs)).2]
        rfl

theorem defineSigma_rename [Zero V] [Mul V] (hi : InjOn φ N) {sqrt : V → V} {ss : List (Stoch V)}
    (h : ∀ s ∈ ss, N s.name ∧ N s.other) : defineSigma sqrt (ss.map (Stoch.rename φ)) = defineSigma sqrt ss := by
  unfold defineSigma
  rw [List.length_map, sigmaLoop_rename hi h]

end Pynare
