import Verif.Spec.Exprs
import Verif.Lemmas.Index
import Verif.Lemmas.Expr
import Verif.Lemmas.FactoryCalib
/-!
# Lemmas about residual functions
-/

namespace Pynare

variable {V : Type}

/-! ### evaluation -/

theorem evalP_fn_iff (f : Fn) : ∀ {ops : Ops V} {x : Except Err V} {v : V},
    (if f.unsupported then (.error .notImplemented : Except Err V)
      else do let a ← x; ops.fn (if f = .ln then .log else f) a) = .ok v ↔
    ∃ g a, Applies f g ∧ x = .ok a ∧ ops.fn g a = .ok v := by
  intro ops x v
  cases hu : f.unsupported with
  | true =>
    simp only [if_true]
    constructor
    · intro h; cases h
    · rintro ⟨g, a, hA, _⟩
      cases hA with
      | ln => cases hu
      | self h1 h2 h3 h4 h5 => cases f <;> simp [Fn.unsupported] at hu <;> contradiction
  | false =>
    simp only [Bool.false_eq_true, if_false, Except.bind_ok_iff]
    constructor
    · rintro ⟨a, h1, h2⟩
      refine ⟨_, a, ?_, h1, h2⟩
      by_cases hl : f = .ln
      · subst hl; exact .ln
      · rw [if_neg hl]
        refine .self hl ?_ ?_ ?_ ?_ <;> rintro rfl <;> simp [Fn.unsupported] at hu
    · rintro ⟨g, a, hA, h1, h2⟩
      refine ⟨a, h1, ?_⟩
      cases hA with
      | ln => exact h2
      | self h => rw [if_neg h]; exact h2

theorem evalP_iff (ops : Ops V) (lv : String → Except Err V) (lp : String → Int → Except Err V)
    (e : Expr V) : ∀ v, evalP ops lv lp e = .ok v ↔
      PEvals ops (fun x v => lv x = .ok v) (fun x o v => lp x o = .ok v) e v := by
  induction e with
  | num w => intro v; simp only [evalP]; constructor
             · intro h; cases h; exact .num
             · intro h; cases h; rfl
  | var x => intro v; simp only [evalP]; constructor
             · intro h; exact .var h
             · intro h; cases h; assumption
  | pvar x o => intro v; simp only [evalP]; constructor
                · intro h; exact .pvar h
                · intro h; cases h; assumption
  | un op e ih =>
    intro v; simp only [evalP, Except.bind_ok_iff]; constructor
    · rintro ⟨a, h1, h2⟩; exact .un ((ih a).mp h1) h2
    · intro h; cases h with
      | un h1 h2 => exact ⟨_, (ih _).mpr h1, h2⟩
  | bin op l r ihl ihr =>
    intro v; simp only [evalP, Except.bind_ok_iff]; constructor
    · rintro ⟨a, h1, b, h2, h3⟩; exact .bin ((ihl a).mp h1) ((ihr b).mp h2) h3
    · intro h; cases h with
      | bin h1 h2 h3 => exact ⟨_, (ihl _).mpr h1, _, (ihr _).mpr h2, h3⟩
  | cmp op l r ihl ihr =>
    intro v; simp only [evalP, Except.bind_ok_iff]; constructor
    · rintro ⟨a, h1, b, h2, h3⟩; exact .cmp ((ihl a).mp h1) ((ihr b).mp h2) h3
    · intro h; cases h with
      | cmp h1 h2 h3 => exact ⟨_, (ihl _).mpr h1, _, (ihr _).mpr h2, h3⟩
  | fn f e ih =>
    intro v; simp only [evalP]; rw [evalP_fn_iff]; constructor
    · rintro ⟨g, a, hA, h1, h2⟩; exact .fn hA ((ih a).mp h1) h2
    · intro h; cases h with
      | fn hA h1 h2 => exact ⟨_, _, hA, (ih _).mpr h1, h2⟩

theorem evalP_congr (ops : Ops V) {lv lv' : String → Except Err V}
    {lp lp' : String → Int → Except Err V} (e : Expr V) (hv : ∀ x ∈ e.vars, lv x = lv' x)
    (hp : ∀ x o, (x, o) ∈ e.pvars → lp x o = lp' x o) :
    evalP ops lv lp e = evalP ops lv' lp' e := by
  induction e with
  | num => rfl
  | var x => exact hv x (by simp [Expr.vars])
  | pvar x o => exact hp x o (by simp [Expr.pvars])
  | un op e ih => simp only [evalP]; rw [ih hv hp]
  | bin op l r ihl ihr =>
    simp only [evalP]
    rw [ihl (fun x h => hv x (by simp [Expr.vars, h])) (fun x o h => hp x o (by simp [Expr.pvars, h])),
      ihr (fun x h => hv x (by simp [Expr.vars, h])) (fun x o h => hp x o (by simp [Expr.pvars, h]))]
  | cmp op l r ihl ihr =>
    simp only [evalP]
    rw [ihl (fun x h => hv x (by simp [Expr.vars, h])) (fun x o h => hp x o (by simp [Expr.pvars, h])),
      ihr (fun x h => hv x (by simp [Expr.vars, h])) (fun x o h => hp x o (by simp [Expr.pvars, h]))]
  | fn f e ih => simp only [evalP]; rw [ih hv hp]

theorem PEvals.congr {ops : Ops V} {P P' : String → V → Prop} {Q Q' : String → Int → V → Prop}
    {e : Expr V} {v : V} (h : PEvals ops P Q e v) (hv : ∀ x ∈ e.vars, ∀ v, P x v → P' x v)
    (hp : ∀ x o, (x, o) ∈ e.pvars → ∀ v, Q x o v → Q' x o v) : PEvals ops P' Q' e v := by
  induction h with
  | num => exact .num
  | var h => exact .var (hv _ (by simp [Expr.vars]) _ h)
  | pvar h => exact .pvar (hp _ _ (by simp [Expr.pvars]) _ h)
  | un _ h2 ih => exact .un (ih hv hp) h2
  | bin _ _ h3 ih1 ih2 =>
    exact .bin (ih1 (fun x h => hv x (by simp [Expr.vars, h])) (fun x o h => hp x o (by simp [Expr.pvars, h])))
      (ih2 (fun x h => hv x (by simp [Expr.vars, h])) (fun x o h => hp x o (by simp [Expr.pvars, h]))) h3
  | cmp _ _ h3 ih1 ih2 =>
    exact .cmp (ih1 (fun x h => hv x (by simp [Expr.vars, h])) (fun x o h => hp x o (by simp [Expr.pvars, h])))
      (ih2 (fun x h => hv x (by simp [Expr.vars, h])) (fun x o h => hp x o (by simp [Expr.pvars, h]))) h3
  | fn hA _ h2 ih => exact .fn hA (ih hv hp) h2

/-! ### substitution -/

/-- common form of the two substitutions -/
def mbGen (σ : String → Option V) (τ : String → Int → Option V) (nm : String → Int → String) :
    Expr V → Expr V × List String
  | .var x => match σ x with
    | some v => (.num v, [])
    | none => (.var x, [x])
  | .pvar x o => match τ x o with
    | some v => (.num v, [])
    | none => (.pvar x o, [nm x o])
  | e => (e, [])

theorem dynMaybe_eq (σ : String → Option V) : dynMaybe σ = mbGen σ (fun _ _ => none) offsetName := by
  funext e; cases e <;> rfl

theorem steadyMaybe_eq (σ : String → Option V) :
    steadyMaybe σ = mbGen σ (fun x _ => σ x) (fun x _ => x) := by
  funext e; cases e <;> rfl

/-- the scope after substitution -/
def withVals (σ : String → Option V) (lv : String → Except Err V) (x : String) : Except Err V :=
  match σ x with
  | some v => .ok v
  | none => lv x

/-- the scope of names with an offset after substitution -/
def withPVals (τ : String → Int → Option V) (lp : String → Int → Except Err V) (x : String)
    (o : Int) : Except Err V :=
  match τ x o with
  | some v => .ok v
  | none => lp x o

section sub
variable {σ : String → Option V} {τ : String → Int → Option V} {nm : String → Int → String}

/-- recorded names -/
def Recorded (σ : String → Option V) (τ : String → Int → Option V) (nm : String → Int → String)
    (e : Expr V) (z : String) : Prop :=
  (∃ x ∈ e.vars, σ x = none ∧ z = x) ∨ (∃ x o, (x, o) ∈ e.pvars ∧ τ x o = none ∧ z = nm x o)

theorem recorded_bin {op : BinOp} {l r : Expr V} {z : String} :
    Recorded σ τ nm (.bin op l r) z ↔ Recorded σ τ nm l z ∨ Recorded σ τ nm r z := by
  unfold Recorded
  simp only [Expr.vars, Expr.pvars, List.mem_append]
  constructor
  · rintro (⟨x, h | h, hh⟩ | ⟨x, o, h | h, hh⟩)
    · exact .inl (.inl ⟨x, h, hh⟩)
    · exact .inr (.inl ⟨x, h, hh⟩)
    · exact .inl (.inr ⟨x, o, h, hh⟩)
    · exact .inr (.inr ⟨x, o, h, hh⟩)
  · rintro ((⟨x, h, hh⟩ | ⟨x, o, h, hh⟩) | (⟨x, h, hh⟩ | ⟨x, o, h, hh⟩))
    · exact .inl ⟨x, .inl h, hh⟩
    · exact .inr ⟨x, o, .inl h, hh⟩
    · exact .inl ⟨x, .inr h, hh⟩
    · exact .inr ⟨x, o, .inr h, hh⟩

/-- the tree is compound -/
def Expr.compound : Expr V → Bool
  | .un _ _ | .bin _ _ _ | .cmp _ _ _ | .fn _ _ => true
  | _ => false

theorem mbGen_compound {e : Expr V} (h : e.compound = true) : mbGen σ τ nm e = (e, []) := by
  cases e <;> first | rfl | cases h

theorem subTree_compound {e e1 : Expr V} {ns : List String}
    (h : subTree (mbGen σ τ nm) e = .ok (e1, ns)) (hc : e.compound = true) : e1.compound = true := by
  cases e with
  | num => cases hc
  | var => cases hc
  | pvar => cases hc
  | cmp => cases h
  | un op e =>
    simp only [subTree, Except.bind_ok_iff] at h
    obtain ⟨p, _, h⟩ := h; simp at h; obtain ⟨rfl, _⟩ := h; rfl
  | bin op l r =>
    simp only [subTree, Except.bind_ok_iff] at h
    obtain ⟨p, _, q, _, h⟩ := h; simp at h; obtain ⟨rfl, _⟩ := h; rfl
  | fn f e =>
    simp only [subTree] at h
    split at h
    · simp at h; obtain ⟨rfl, _⟩ := h; rfl
    · simp only [Except.bind_ok_iff] at h
      obtain ⟨p, _, h⟩ := h; simp at h; obtain ⟨rfl, _⟩ := h; rfl

theorem subTree_spec {ops : Ops V} {lv : String → Except Err V} {lp : String → Int → Except Err V}
    (e : Expr V) : ∀ {e1 : Expr V} {ns : List String},
    subTree (mbGen σ τ nm) e = .ok (e1, ns) →
    evalP ops lv lp (mbGen σ τ nm e1).1 = evalP ops (withVals σ lv) (withPVals τ lp) e ∧
    ∀ z, z ∈ ns ++ (mbGen σ τ nm e1).2 ↔ Recorded σ τ nm e z := by
  induction e with
  | num w =>
    intro e1 ns h
    simp [subTree] at h; obtain ⟨rfl, rfl⟩ := h
    exact ⟨rfl, by simp [mbGen, Recorded, Expr.vars, Expr.pvars]⟩
  | var x =>
    intro e1 ns h
    simp [subTree] at h; obtain ⟨rfl, rfl⟩ := h
    cases hx : σ x with
    | some v =>
      refine ⟨by simp [mbGen, evalP, withVals, hx], ?_⟩
      intro z; simp [mbGen, hx, Recorded, Expr.vars, Expr.pvars]
      rintro rfl; simp [hx]
    | none =>
      refine ⟨by simp [mbGen, evalP, withVals, hx], ?_⟩
      intro z; simp [mbGen, hx, Recorded, Expr.vars, Expr.pvars]
      rintro rfl; exact hx
  | pvar x o =>
    intro e1 ns h
    simp [subTree] at h; obtain ⟨rfl, rfl⟩ := h
    cases hx : τ x o with
    | some v =>
      refine ⟨by simp [mbGen, evalP, withPVals, hx], ?_⟩
      intro z; simp [mbGen, hx, Recorded, Expr.vars, Expr.pvars]
    | none =>
      refine ⟨by simp [mbGen, evalP, withPVals, hx], ?_⟩
      intro z; simp [mbGen, hx, Recorded, Expr.vars, Expr.pvars]
  | un op e ih =>
    intro e1 ns h
    simp only [subTree, Except.bind_ok_iff] at h
    obtain ⟨p, h1, h2⟩ := h
    simp at h2; obtain ⟨rfl, rfl⟩ := h2
    obtain ⟨a, b⟩ := ih (e1 := p.1) (ns := p.2) h1
    rw [mbGen_compound rfl]
    refine ⟨?_, ?_⟩
    · simp only [evalP]; rw [a]
    · intro z; rw [List.append_nil, b z]; rfl
  | bin op l r ihl ihr =>
    intro e1 ns h
    simp only [subTree, Except.bind_ok_iff] at h
    obtain ⟨p, h1, q, h2, h3⟩ := h
    simp at h3; obtain ⟨rfl, rfl⟩ := h3
    obtain ⟨a, b⟩ := ihl (e1 := p.1) (ns := p.2) h1
    obtain ⟨c, d⟩ := ihr (e1 := q.1) (ns := q.2) h2
    rw [mbGen_compound rfl]
    refine ⟨?_, ?_⟩
    · simp only [evalP]; rw [a, c]
    · intro z
      rw [recorded_bin, ← b z, ← d z]
      simp only [List.mem_append, List.not_mem_nil, or_false]
      constructor
      · rintro (h | h | h | h)
        · exact .inl (.inl h)
        · exact .inr (.inl h)
        · exact .inl (.inr h)
        · exact .inr (.inr h)
      · rintro ((h | h) | (h | h))
        · exact .inl h
        · exact .inr (.inr (.inl h))
        · exact .inr (.inl h)
        · exact .inr (.inr (.inr h))
  | cmp => intro e1 ns h; cases h
  | fn f e ih =>
    intro e1 ns h
    have hrec : ∀ z, Recorded σ τ nm (.fn f e) z ↔ Recorded σ τ nm e z := fun z => Iff.rfl
    cases hc : e.compound with
    | true =>
      have hm : mbGen σ τ nm e = (e, []) := mbGen_compound hc
      simp only [subTree, hm] at h
      cases e with
      | num => cases hc
      | var => cases hc
      | pvar => cases hc
      | _ =>
        simp only [Except.bind_ok_iff] at h
        obtain ⟨p, h1, h2⟩ := h
        simp at h2; obtain ⟨rfl, rfl⟩ := h2
        obtain ⟨a, b⟩ := ih (e1 := p.1) (ns := p.2) h1
        have hp := mbGen_compound (σ := σ) (τ := τ) (nm := nm) (subTree_compound (e1 := p.1) (ns := p.2) h1 hc)
        rw [hp] at a b
        rw [mbGen_compound rfl]
        refine ⟨?_, ?_⟩
        · simp only [evalP] at a ⊢; rw [a]
        · intro z; rw [hrec, ← b z]
    | false =>
      cases e with
      | un => cases hc
      | bin => cases hc
      | cmp => cases hc
      | fn => cases hc
      | num w =>
        simp [subTree, mbGen] at h; obtain ⟨rfl, rfl⟩ := h
        rw [mbGen_compound rfl]
        refine ⟨rfl, ?_⟩
        intro z; simp [Recorded, Expr.vars, Expr.pvars]
      | var x =>
        obtain ⟨a, b⟩ := ih (e1 := .var x) (ns := []) rfl
        cases hx : σ x with
        | some v =>
          simp [subTree, mbGen, hx] at h; obtain ⟨rfl, rfl⟩ := h
          rw [mbGen_compound rfl]
          simp only [mbGen, hx] at a b
          exact ⟨by simp only [evalP] at a ⊢; rw [a], fun z => by rw [hrec, ← b z]⟩
        | none =>
          simp [subTree, mbGen, hx, bind, Except.bind] at h; obtain ⟨rfl, rfl⟩ := h
          rw [mbGen_compound rfl]
          simp only [mbGen, hx] at a b
          exact ⟨by simp only [evalP] at a ⊢; rw [a], fun z => by rw [hrec, ← b z]; simp⟩
      | pvar x o =>
        obtain ⟨a, b⟩ := ih (e1 := .pvar x o) (ns := []) rfl
        cases hx : τ x o with
        | some v =>
          simp [subTree, mbGen, hx] at h; obtain ⟨rfl, rfl⟩ := h
          rw [mbGen_compound rfl]
          simp only [mbGen, hx] at a b
          exact ⟨by simp only [evalP] at a ⊢; rw [a], fun z => by rw [hrec, ← b z]⟩
        | none =>
          simp [subTree, mbGen, hx, bind, Except.bind] at h; obtain ⟨rfl, rfl⟩ := h
          rw [mbGen_compound rfl]
          simp only [mbGen, hx] at a b
          exact ⟨by simp only [evalP] at a ⊢; rw [a], fun z => by rw [hrec, ← b z]; simp⟩

theorem subTree_ok (e : Expr V) (h : e.hasCmp = false) : ∃ p, subTree (mbGen σ τ nm) e = .ok p := by
  induction e with
  | num => exact ⟨_, rfl⟩
  | var => exact ⟨_, rfl⟩
  | pvar => exact ⟨_, rfl⟩
  | un op e ih =>
    obtain ⟨p, hp⟩ := ih h
    simp [subTree, hp, bind, Except.bind]
  | bin op l r ihl ihr =>
    simp [Expr.hasCmp] at h
    obtain ⟨p, hp⟩ := ihl h.1
    obtain ⟨q, hq⟩ := ihr h.2
    simp [subTree, hp, hq, bind, Except.bind]
  | cmp => cases h
  | fn f e ih =>
    obtain ⟨p, hp⟩ := ih h
    simp only [subTree]
    split
    · exact ⟨_, rfl⟩
    · simp [hp, bind, Except.bind]

end sub

/-! ### reading the argument vector -/

theorem pickVals_spec (names : List String) (xs : List String) : ∀ (d : Dict V) (vs : List V),
    vs.length = xs.length → xs.Nodup → (∀ x ∈ xs, d.get? x = none) →
    ∃ d', pickVals names d xs vs = .ok d' ∧
      ∀ z v, d'.get? z = some v ↔ d.get? z = some v ∨
        (z ∈ names ∧ ∃ i : Nat, xs[i]? = some z ∧ vs[i]? = some v) := by
  induction xs with
  | nil => intro d vs _ _ _; exact ⟨d, by simp [pickVals], by simp⟩
  | cons x xs ih =>
    intro d vs hl hn hd
    cases vs with
    | nil => simp at hl
    | cons w vs =>
      rw [List.nodup_cons] at hn
      simp only [pickVals]
      obtain ⟨d', h1, h2⟩ := ih (if x ∈ names then d.set x w else d) vs (by simpa using hl) hn.2 (by
        intro y hy
        have hne : x ≠ y := fun e => hn.1 (e ▸ hy)
        split
        · rw [Dict.get?_set_ne _ hne]; exact hd y (List.mem_cons_of_mem _ hy)
        · exact hd y (List.mem_cons_of_mem _ hy))
      refine ⟨d', h1, ?_⟩
      intro z v
      rw [h2 z v]
      constructor
      · rintro (h | ⟨hz, i, hi, hv⟩)
        · by_cases hx : x ∈ names
          · rw [if_pos hx, Dict.get?_set] at h
            split at h
            · rename_i e; subst e
              cases h
              exact .inr ⟨hx, 0, rfl, rfl⟩
            · exact .inl h
          · rw [if_neg hx] at h; exact .inl h
        · exact .inr ⟨hz, i + 1, by simpa using hi, by simpa using hv⟩
      · rintro (h | ⟨hz, i, hi, hv⟩)
        · left
          split
          · rw [Dict.get?_set_ne]
            · exact h
            · rintro rfl
              rw [hd x (List.mem_cons_self ..)] at h; cases h
          · exact h
        · cases i with
          | zero =>
            simp at hi hv; subst hi hv
            left; rw [if_pos hz, Dict.get?_set_self]
          | succ i => exact .inr ⟨hz, i, by simpa using hi, by simpa using hv⟩

theorem modelSignature_ok {okName : String → Bool} {names : List String} :
    modelSignature okName names = .ok () ↔ (∀ x ∈ names, okName x = true) ∧ names.Nodup := by
  unfold modelSignature
  split
  · rename_i h; simp at h; simp [h]; exact h.1
  · rename_i h; simp at h ⊢; intro h1; exact h h1

/-! ### the places of the table -/

theorem mem_places {t : Typer} {r c : Nat} :
    (r, c) ∈ t.places ↔ r < 3 ∧ c < t.n ∧ t.has r c = true := by
  simp only [Typer.places, List.mem_flatMap, List.mem_range, List.mem_map, Typer.mem_sel]
  constructor
  · rintro ⟨r', hr, c', ⟨h1, h2⟩, h3⟩
    cases h3; exact ⟨hr, h1, h2⟩
  · rintro ⟨h1, h2, h3⟩; exact ⟨r, h1, c, ⟨h2, h3⟩, rfl⟩

theorem places_sorted (t : Typer) :
    t.places.Pairwise fun p q => p.1 < q.1 ∨ (p.1 = q.1 ∧ p.2 < q.2) := by
  unfold Typer.places
  rw [List.pairwise_flatMap]
  constructor
  · intro r _
    rw [List.pairwise_map]
    refine List.Pairwise.imp (R := (· < ·)) (fun h => .inr ⟨rfl, h⟩) ?_
    exact List.Pairwise.sublist List.filter_sublist List.pairwise_lt_range
  · refine List.Pairwise.imp ?_ (List.pairwise_lt_range (n := 3))
    intro a b hab p hp q hq
    obtain ⟨_, _, rfl⟩ := List.mem_map.mp hp
    obtain ⟨_, _, rfl⟩ := List.mem_map.mp hq
    exact .inl hab

/-- the places in order hold the numbers `0, 1, …` -/
theorem places_numbers {pss : List (List Int)} {t : Llx} (h : buildLlx pss = .ok t) :
    t.places.map (fun p => t.cell p.1 p.2) = (List.range t.count).map some := by
  obtain ⟨h1, h2, _, h4, h5⟩ := buildLlx_spec h
  have hmap : t.places.map (fun p => t.cell p.1 p.2) =
      (t.places.map fun p => (t.cell p.1 p.2).getD 0).map some := by
    rw [List.map_map]
    refine List.map_congr_left ?_
    rintro ⟨r, c⟩ hp
    obtain ⟨k, hk⟩ := Option.isSome_iff_exists.mp (mem_places.mp hp).2.2
    simp [hk]
  rw [hmap]
  congr 1
  have hs : (t.places.map fun p => (t.cell p.1 p.2).getD 0).Pairwise (· < ·) := by
    rw [List.pairwise_map]
    refine List.Pairwise.imp_of_mem ?_ (places_sorted t.toTyper)
    rintro ⟨r, c⟩ ⟨r', c'⟩ hp hq hlt
    obtain ⟨k, hk⟩ := Option.isSome_iff_exists.mp (mem_places.mp hp).2.2
    obtain ⟨k', hk'⟩ := Option.isSome_iff_exists.mp (mem_places.mp hq).2.2
    simp only [hk, hk', Option.getD_some]
    exact (h4 _ _ _ _ _ _ hk hk').mpr hlt
  refine sorted_perm_range ?_ (hs.imp Nat.le_of_lt)
  rw [List.perm_ext_iff_of_nodup (hs.imp (fun h => Nat.ne_of_lt h)) List.nodup_range]
  intro k
  rw [List.mem_range, h5]
  constructor
  · intro hm
    obtain ⟨⟨r, c⟩, hp, rfl⟩ := List.mem_map.mp hm
    obtain ⟨k, hk⟩ := Option.isSome_iff_exists.mp (mem_places.mp hp).2.2
    exact ⟨r, c, by simp [hk]⟩
  · rintro ⟨r, c, hk⟩
    refine List.mem_map.mpr ⟨(r, c), mem_places.mpr ⟨(h2 r c k hk).1, h1 ▸ (h2 r c k hk).2, ?_⟩, by simp [hk]⟩
    simp [Typer.has, hk]

theorem places_length {pss : List (List Int)} {t : Llx} (h : buildLlx pss = .ok t) :
    t.places.length = t.count := by
  have := congrArg List.length (places_numbers h)
  simpa using this

theorem places_get {pss : List (List Int)} {t : Llx} (h : buildLlx pss = .ok t) {r c k : Nat} :
    t.cell r c = some k ↔ t.places[k]? = some (r, c) := by
  have hn := places_numbers h
  have hlen := places_length h
  obtain ⟨h1, h2, _, h4, h5⟩ := buildLlx_spec h
  have fwd : ∀ {r c}, t.places[k]? = some (r, c) → t.cell r c = some k := by
    intro r c hp
    have hk : k < t.places.length := (List.getElem?_eq_some_iff.mp hp).1
    have : (t.places.map fun p => t.cell p.1 p.2)[k]? = some (some k) := by
      rw [hn]; simp [← hlen, hk]
    rw [List.getElem?_map, hp] at this
    simpa using this
  constructor
  · intro hc
    have hk : k < t.places.length := by rw [hlen]; exact (h5 k).mpr ⟨r, c, hc⟩
    have hg := List.getElem?_eq_getElem hk
    have hc' := fwd (r := (t.places[k]).1) (c := (t.places[k]).2) hg
    have a1 := h4 _ _ _ _ _ _ hc hc'
    have a2 := h4 _ _ _ _ _ _ hc' hc
    rw [hg]
    congr 1
    apply Prod.ext
    · show (t.places[k]).1 = r; omega
    · show (t.places[k]).2 = c; omega
  · exact fwd

theorem suffixName_one (x : String) : suffixName 1 x = x := by
  simp [suffixName]

theorem suffixName_offset {x : String} {o : Int} (ho : o = -1 ∨ o = 1) :
    suffixName (o + 1).toNat x = offsetName x o := by
  rcases ho with rfl | rfl <;> rfl

theorem dynVars_length {pss : List (List Int)} {t : Llx} (h : buildLlx pss = .ok t)
    (endo exo : List String) : (dynVars endo exo t.toTyper).length = t.count + exo.length := by
  simp [dynVars, places_length h]

theorem dynVars_endog {pss : List (List Int)} {t : Llx} (h : buildLlx pss = .ok t)
    {endo exo : List String} {r i k : Nat} {x : String} (hi : endo[i]? = some x)
    (hk : t.cell r i = some k) : (dynVars endo exo t.toTyper)[k]? = some (suffixName r x) := by
  have hp := (places_get h).mp hk
  have hl : k < t.places.length := (List.getElem?_eq_some_iff.mp hp).1
  unfold dynVars
  rw [List.getElem?_append_left (by simpa using hl), List.getElem?_map, hp]
  simp [hi]

theorem dynVars_shock {pss : List (List Int)} {t : Llx} (h : buildLlx pss = .ok t)
    {endo exo : List String} {j : Nat} {x : String} (hj : exo[j]? = some x) :
    (dynVars endo exo t.toTyper)[t.count + j]? = some x := by
  unfold dynVars
  rw [List.getElem?_append_right (by simp [places_length h])]
  simp [places_length h, hj]

theorem getElem?_inj_of_nodup {α : Type} {xs : List α} (hn : xs.Nodup) {i j : Nat} {a : α}
    (hi : xs[i]? = some a) (hj : xs[j]? = some a) : i = j := by
  obtain ⟨h1, e1⟩ := List.getElem?_eq_some_iff.mp hi
  obtain ⟨h2, e2⟩ := List.getElem?_eq_some_iff.mp hj
  exact (List.Nodup.getElem_inj_iff hn).mp (e1.trans e2.symm)

/-- in the table of a model a standard occurrence has a number -/
theorem modelLlx_cell {endo : List String} {es : List (Expr V)} {t : Llx}
    (h : modelLlx endo es = .ok t) (hc : ∀ e ∈ es, e.hasCmp = false) {i : Nat} {x : String}
    (hi : endo[i]? = some x) {p : Int} (hp : p = -1 ∨ p = 0 ∨ p = 1)
    (hstd : ∀ q, ∀ e ∈ es, OccursAt x q e → q = -1 ∨ q = 0 ∨ q = 1)
    {e : Expr V} (he : e ∈ es) (ho : OccursAt x p e) : ∃ k, t.cell (p + 1).toNat i = some k := by
  obtain ⟨d, h1, h2, h3⟩ := readLeadLags_spec endo es hc
  simp only [modelLlx, h1, Except.bind_ok_iff] at h
  obtain ⟨d', hd, hb⟩ := h
  cases hd
  have hx : x ∈ endo := List.mem_of_getElem? hi
  obtain ⟨s, hs, hps⟩ := (h3 x p).mpr ⟨hx, e, he, ho⟩
  have hstd' : ∀ q ∈ s, q = -1 ∨ q = 0 ∨ q = 1 := by
    intro q hq
    obtain ⟨_, e', he', ho'⟩ := (h3 x q).mp ⟨s, hs, hq⟩
    exact hstd q e' he' ho'
  obtain ⟨_, _, g3, _⟩ := buildLlx_spec hb
  obtain ⟨rs, hr, hiff⟩ := g3 (p + 1).toNat i s (by omega) (by rw [List.getElem?_map, hi]; simp [hs])
  rw [varRows_std (by rintro rfl; simp at hps) hstd'] at hr
  cases hr
  exact Option.isSome_iff_exists.mp (hiff.mpr (List.mem_map.mpr ⟨p, hps, rfl⟩))

theorem modelLlx_build {endo : List String} {es : List (Expr V)} {t : Llx}
    (h : modelLlx endo es = .ok t) : ∃ pss, buildLlx pss = .ok t := by
  simp only [modelLlx, Except.bind_ok_iff] at h
  obtain ⟨d, _, hb⟩ := h
  exact ⟨_, hb⟩

end Pynare
