import Verif.Spec.Whole
import Verif.Lemmas.ReadingMore
import Verif.Lemmas.Linear
import Verif.Props.Index
import Verif.Lemmas.ModelObj
/-!
# Lemmas about models from text to solution
-/

namespace Pynare

variable {V SS S : Type}

set_option linter.unusedSectionVars false

/-- solving a model that was just made -/
theorem solve_fresh [Zero V] [Mul V] {env : MEnv V SS S} {md md' : MState V SS S} {s : S} (ha : md.altered = false)
    (h : md.solve env = (md', .ok s)) : ∃ sg, env.mkSol md.statespace sg = .ok s ∧ (md.readSigma env).2 = .ok sg := by
  unfold MState.solve MState.readAttr MState.refresh at h
  simp only [ha, Bool.false_eq_true, if_false] at h
  split at h
  · cases h
  · rename_i m'' sg hsg
    split at h
    · rename_i s' hs
      cases h
      exact ⟨sg, hs, by rw [hsg]⟩
    · cases h

/-- what is known of a model made from a text -/
theorem text_fresh [Zero V] [One V] [Mul V] {r : ReadEnv V SS S} (ok : CharOk r.cfg) {us : List (Tok V)} {mf : ModelFile V}
    (hf : FileOf r.pc us mf) {text : List Char} (hw : Written r.cfg us text []) {lang name : String}
    {md : MState V SS S} (h : fromText r lang name text = .ok md) {ρ : String → Option V}
    (hρ : Exec r.env.ops noValues mf.params ρ) :
    Fresh r.env md ∧ md.altered = false ∧ md.exprs.exprs = (equations mf.stmts).map (fun p => .bin .sub p.1 p.2) ∧
      (∀ e ∈ md.exprs.exprs, e.hasCmp = false) := by
  obtain ⟨_, o, h1, h2⟩ := fromText_inv ok hf hw h
  have ho := outline_of (text_kinds ok hf hw) h1 hρ
  obtain ⟨_, ls, ps, params, locals, _, _, _, _, _, hbuild⟩ := fromOutline_inv h2
  obtain ⟨hfr, ha, hn, _⟩ := create_fresh hbuild
  have he : md.exprs.exprs = o.exprs := by
    simp only [MState.build, Except.bind_ok_iff, Except.ok.injEq] at hbuild
    obtain ⟨ll, g1, steady, g2, sto, g3, det, g4, idx, g5, dyn, g6, ss, g7, rfl⟩ := hbuild
    rfl
  refine ⟨hfr, ha, by rw [he, ho.exprs], by rw [he]; exact ho.noCmp⟩

/-- the table of a model made from a text -/
theorem text_table [Zero V] [One V] [Mul V] {r : ReadEnv V SS S} {mf : ModelFile V} {md : MState V SS S}
    {ρ σ : String → Option V} (hfr : Fresh r.env md)
    (hx : md.exprs.exprs = (equations mf.stmts).map (fun p => .bin .sub p.1 p.2))
    (hc : ∀ e ∈ md.exprs.exprs, e.hasCmp = false) (he : PlainEquations mf) (hr : Represents r.env.ops mf ρ σ md) :
    ∃ pss, buildLlx pss = .ok md.indexes ∧ pss.length = (mf.names "var").length ∧
      ∀ (c : Nat) x ps, (mf.names "var")[c]? = some x → pss[c]? = some ps →
        ∀ p, p ∈ ps ↔ ∃ l r, (l, r) ∈ equations mf.stmts ∧
          (p = 0 ∧ (x ∈ l.vars ∨ x ∈ r.vars) ∨ ((x, p) ∈ l.pvars ∨ (x, p) ∈ r.pvars)) := by
  obtain ⟨d, h1, h2, h3⟩ := readLeadLags_spec md.endogNames md.exprs.exprs hc
  have hi := hfr.indexes
  simp only [modelLlx, h1, bind, Except.bind] at hi
  rw [hr.endog] at hi h2 h3
  refine ⟨_, hi, by simp, ?_⟩
  intro c x ps hcx hps p
  rw [List.getElem?_map, hcx] at hps
  cases hps
  have hxm : x ∈ mf.names "var" := List.mem_of_getElem? hcx
  obtain ⟨l, hl⟩ := Dict.exists_get?_of_mem ((h2 x).mpr hxm)
  have : p ∈ (d.get? x).getD [] ↔ Rec d x p := by
    rw [hl]
    constructor
    · intro h; exact ⟨l, hl, h⟩
    · rintro ⟨s, hs, hm⟩; rw [hl] at hs; cases hs; exact hm
  rw [this, h3, hx]
  constructor
  · rintro ⟨_, e, hm, ho⟩
    obtain ⟨⟨l', r'⟩, hlr, rfl⟩ := List.mem_map.mp hm
    refine ⟨l', r', hlr, ?_⟩
    rcases ho with ⟨a, b⟩ | b
    · exact .inl ⟨a, by simpa [Expr.vars] using b⟩
    · exact .inr (by simpa [Expr.pvars] using b)
  · rintro ⟨l', r', hlr, ho⟩
    refine ⟨hxm, _, List.mem_map.mpr ⟨_, hlr, rfl⟩, ?_⟩
    rcases ho with ⟨a, b⟩ | b
    · exact .inl ⟨a, by simpa [Expr.vars] using b⟩
    · exact .inr (by simpa [Expr.pvars] using b)

section
variable [Field V] [LinearOrder V] [IsStrictOrderedRing V]

/-- The numbers of the table are read as the levels of the variables. -/
theorem side_of_vec {ops : Ops V} {mf : ModelFile V} {σ : String → Option V} {t : Llx} {ss vec : List V} {d : Around V}
    (hvec : Assembled t (mf.names "varexo").length ss d vec) {e : Expr V} {v : V}
    (hp : ∀ x o, (x, o) ∈ e.pvars → o = -1 ∨ o = 1)
    (h : PEvals ops (ReadsVar σ (mf.names "var") (mf.names "varexo") t vec) (ReadsAt (mf.names "var") t.toTyper vec) e v) :
    SideValue ops mf σ (levelsAt ss d) e v := by
  refine h.congr ?_ ?_
  · intro x _ v hv
    cases hv with
    | param h => exact .param h
    | endog h h' =>
      obtain ⟨i, k, hi, hk, hv⟩ := h'
      rw [show ((0 : Int) + 1).toNat = 1 from rfl] at hk
      rw [hvec.now i k hk] at hv
      cases hv
      exact .endog (L := levelsAt ss d) h hi
    | shock h hj hv =>
      rw [hvec.shock _ (List.getElem?_eq_some_iff.mp hj).1] at hv
      cases hv
      exact .shock (L := levelsAt ss d) h hj
  · intro x o hxo v hv
    obtain ⟨i, k, hi, hk, hv⟩ := hv
    rcases hp x o hxo with rfl | rfl
    · rw [show ((-1 : Int) + 1).toNat = 0 from rfl] at hk
      rw [hvec.before i k hk] at hv
      cases hv
      exact .before (L := levelsAt ss d) hi
    · rw [show ((1 : Int) + 1).toNat = 2 from rfl] at hk
      rw [hvec.after i k hk] at hv
      cases hv
      exact .after (L := levelsAt ss d) hi

/-- the levels of the variables are read at the numbers of the table, if it has these numbers -/
theorem vec_of_side {ops : Ops V} {mf : ModelFile V} {σ : String → Option V} {t : Llx} {ss vec : List V} {d : Around V}
    (hvec : Assembled t (mf.names "varexo").length ss d vec) {e : Expr V} {v : V}
    (h0 : ∀ x ∈ e.vars, ∀ c : Nat, (mf.names "var")[c]? = some x → ∃ k, t.cell 1 c = some k)
    (hp : ∀ x o, (x, o) ∈ e.pvars → ∀ c : Nat, (mf.names "var")[c]? = some x → ∃ k, t.cell (o + 1).toNat c = some k)
    (h : SideValue ops mf σ (levelsAt ss d) e v) :
    PEvals ops (ReadsVar σ (mf.names "var") (mf.names "varexo") t vec) (ReadsAt (mf.names "var") t.toTyper vec) e v := by
  refine h.congr ?_ ?_
  · intro x hx v hv
    cases hv with
    | param h => exact .param h
    | @endog c h hc =>
      obtain ⟨k, hk⟩ := h0 x hx c hc
      exact .endog h ⟨c, k, hc, hk, hvec.now c k hk⟩
    | shock h hj => exact .shock h hj (hvec.shock _ (List.getElem?_eq_some_iff.mp hj).1)
  · intro x o hxo v hv
    cases hv with
    | @before c hc =>
      obtain ⟨k, hk⟩ := hp x _ hxo c hc
      exact ⟨c, k, hc, hk, hvec.before c k hk⟩
    | @after c hc =>
      obtain ⟨k, hk⟩ := hp x _ hxo c hc
      exact ⟨c, k, hc, hk, hvec.after c k hk⟩

/-- making the state space -/
theorem modelSpace_ok {lib : Libs V} {es : List (Endog V)} {nExog : Nat} {t : Llx} {st dy : List (ResFun V)}
    {sp : ModelSpace V} (h : modelSpace lib es nExog t st dy = .ok sp) :
    sp.indexes = t ∧ sp.nExog = nExog ∧ sp.dynamic = dy ∧ sp.steady.length = t.n ∧
      modelValues lib.opt "dynare" ⟨callAll st, startValues lib.nan es⟩ = .ok sp.steady ∧
      modelJacobian lib.ad t.toTyper nExog dy sp.steady = .ok sp.jacobian ∧
      Space.create lib.la t.toTyper sp.jacobian = .ok sp.space := by
  unfold modelSpace at h
  obtain ⟨ss, h1, h⟩ := Except.bind_eq_ok h
  split at h
  · cases h
  · rename_i hl
    obtain ⟨J, h2, h⟩ := Except.bind_eq_ok h
    obtain ⟨s, h3, h⟩ := Except.bind_eq_ok h
    cases h
    exact ⟨rfl, rfl, rfl, not_not.mp hl, h1, h2, h3⟩

/-- What is known of a model that was made from a text, whatever its state space is. -/
structure TextBase {SS S : Type} (ops : Ops V) (m : ModelFile V) (ρ σ : String → Option V)
    (md : MState V SS S) (pss : List (List Int)) : Prop where
  vals : FileVals ops m ρ σ
  rep : Represents ops m ρ σ md
  acc : Accepted m
  table : buildLlx pss = .ok md.indexes
  len : pss.length = (m.names "var").length
  mem : ∀ (c : Nat) x ps, (m.names "var")[c]? = some x → pss[c]? = some ps →
        ∀ p, p ∈ ps ↔ ∃ l r, (l, r) ∈ equations m.stmts ∧
          (p = 0 ∧ (x ∈ l.vars ∨ x ∈ r.vars) ∨ ((x, p) ∈ l.pvars ∨ (x, p) ∈ r.pvars))
  fresh : md.altered = false

/-- What is known of a model that was made from a text, with the state space above. -/
structure TextFacts {S : Type} (ops : Ops V) (lib : Libs V) (m : ModelFile V) (ρ σ : String → Option V)
    (md : MState V (ModelSpace V) S) (pss : List (List Int)) : Prop extends TextBase ops m ρ σ md pss where
  space : modelSpace lib md.endog (m.names "varexo").length md.indexes md.steady md.dynamic = .ok md.statespace

theorem text_base {SS S : Type} {r : ReadEnv V SS S} {text : List Char} {m : ModelFile V} {ρ : String → Option V}
    {md : MState V SS S} (h : ReadFrom r text m ρ md) : ∃ σ pss, TextBase r.env.ops m ρ σ md pss ∧ Fresh r.env md ∧
      md.stoch.length = (m.names "varexo").length := by
  obtain ⟨us, hf, hw⟩ := h.file
  obtain ⟨lang, name, hm⟩ := h.made
  obtain ⟨_, o, h1, h2⟩ := fromText_inv h.chars hf hw hm
  have hk := text_kinds h.chars hf hw
  obtain ⟨σ, hv, hrep⟩ := outline_represents hk h1 h.values h.params h.equations h2
  obtain ⟨hfr, ha, hx, hc⟩ := text_fresh h.chars hf hw hm h.values
  obtain ⟨pss, t1, t2, t3⟩ := text_table hfr hx hc h.equations hrep
  obtain ⟨h0, _⟩ := createOutline_inv h1
  have hn : md.stoch.length = (m.names "varexo").length := by
    rw [← hrep.stoch, MState.stochNames, List.length_map]
  exact ⟨σ, pss, ⟨hv, hrep, (verify_iff m hk).mp h0, t1, t2, t3, ha⟩, hfr, hn⟩

theorem text_facts {S : Type} {r : ReadEnv V (ModelSpace V) S} {lib : Libs V} (hr : r.env.mkSS = modelSpace lib)
    {text : List Char} {m : ModelFile V} {ρ : String → Option V} {md : MState V (ModelSpace V) S}
    (h : ReadFrom r text m ρ md) : ∃ σ pss, TextFacts r.env.ops lib m ρ σ md pss := by
  obtain ⟨σ, pss, hb, hfr, hn⟩ := text_base h
  have hs := hfr.space
  rw [hr, hn] at hs
  exact ⟨σ, pss, { hb with space := hs }⟩

/-- the periods in which the variables of a plain file occur -/
theorem TextBase.periods {SS S : Type} {ops : Ops V} {m : ModelFile V} {ρ σ : String → Option V}
    {md : MState V SS S} {pss : List (List Int)} (h : TextBase ops m ρ σ md pss)
    (he : PlainEquations m) (hw : WellPosed m) :
    ∀ ps ∈ pss, 0 ∈ ps ∧ ∀ p ∈ ps, p = -1 ∨ p = 0 ∨ p = 1 := by
  intro ps hps
  obtain ⟨c, hc, e⟩ := List.getElem_of_mem hps
  have hc' : c < (m.names "var").length := by rw [← h.len]; exact hc
  have hx := List.getElem?_eq_getElem hc'
  have hp : pss[c]? = some ps := by rw [List.getElem?_eq_getElem hc, e]
  have key := h.mem c _ ps hx hp
  refine ⟨(key 0).mpr ?_, fun p hp' => ?_⟩
  · obtain ⟨l, r, a, b⟩ := hw.current _ (mem_names.mp (List.getElem_mem hc'))
    exact ⟨l, r, a, .inl ⟨rfl, b⟩⟩
  · obtain ⟨l, r, a, b⟩ := (key p).mp hp'
    rcases b with ⟨b, _⟩ | b
    · exact .inr (.inl b)
    · rcases (he.pvars l r a _ p b).2 with h | h
      · exact .inl h
      · exact .inr (.inr h)

/-- the table has the numbers that equations ask for -/
theorem TextBase.cells {SS S : Type} {ops : Ops V} {m : ModelFile V} {ρ σ : String → Option V}
    {md : MState V SS S} {pss : List (List Int)} (h : TextBase ops m ρ σ md pss)
    (he : PlainEquations m) (hw : WellPosed m) {l r : Expr V} (hlr : (l, r) ∈ equations m.stmts) :
    (∀ x, x ∈ l.vars ∨ x ∈ r.vars → ∀ c : Nat, (m.names "var")[c]? = some x → ∃ k, md.indexes.cell 1 c = some k) ∧
    ∀ x o, (x, o) ∈ l.pvars ∨ (x, o) ∈ r.pvars → ∀ c : Nat, (m.names "var")[c]? = some x →
      ∃ k, md.indexes.cell (o + 1).toNat c = some k := by
  have hps := h.periods he hw
  obtain ⟨t', ht', hn, hcell, -⟩ := C28_numbering pss (fun ps h h0 => by
    have := (hps ps h).1; rw [h0] at this; cases this) (fun ps h => (hps ps h).2)
  rw [h.table] at ht'
  have := Except.ok.inj ht'
  subst this
  have hget : ∀ (c : Nat) x, (m.names "var")[c]? = some x → ∃ ps, pss[c]? = some ps := by
    intro c x hc
    have : c < pss.length := by rw [h.len]; exact (List.getElem?_eq_some_iff.mp hc).1
    exact ⟨_, List.getElem?_eq_getElem this⟩
  refine ⟨fun x hx c hc => ?_, fun x o hx c hc => ?_⟩
  · obtain ⟨ps, hp⟩ := hget c x hc
    exact (hcell c ps 0 hp (by omega)).mpr ((h.mem c x ps hc hp 0).mpr ⟨l, r, hlr, .inl ⟨rfl, hx⟩⟩)
  · obtain ⟨ps, hp⟩ := hget c x hc
    have ho := (he.pvars l r hlr x o hx).2
    have hm := (h.mem c x ps hc hp o).mpr ⟨l, r, hlr, .inr hx⟩
    rcases ho with rfl | rfl
    · exact (hcell c ps _ hp (by decide)).mpr hm
    · exact (hcell c ps _ hp (by decide)).mpr hm

/-- the value of a residual function is the gap of its equation -/
theorem TextBase.gap {SS S : Type} {ops : Ops V} (hsub : ∀ a b, ops.bin .sub a b = .ok (a - b))
    {m : ModelFile V} {ρ σ : String → Option V} {md : MState V SS S} {pss : List (List Int)}
    (h : TextBase ops m ρ σ md pss) (he : PlainEquations m) (hw : WellPosed m) {i : Nat} {l r : Expr V}
    {f : ResFun V} (hi : (equations m.stmts)[i]? = some (l, r)) (hf : md.dynamic[i]? = some f) {ss vec : List V}
    {d : Around V} (hvec : Assembled md.indexes (m.names "varexo").length ss d vec) (v : V) :
    f vec = .ok v ↔ GapIs ops m σ (levelsAt ss d) l r v := by
  rw [h.rep.dynamic i l r f hi hf vec hvec.len v]
  have hlr := List.mem_of_getElem? hi
  obtain ⟨c0, c1⟩ := h.cells he hw hlr
  constructor
  · rintro ⟨a, b, ha, hb, hab⟩
    rw [hsub] at hab
    exact ⟨a, b, side_of_vec hvec (fun x o hx => (he.pvars l r hlr x o (.inl hx)).2) ha,
      side_of_vec hvec (fun x o hx => (he.pvars l r hlr x o (.inr hx)).2) hb, Except.ok.inj hab⟩
  · rintro ⟨a, b, ha, hb, hab⟩
    exact ⟨a, b, vec_of_side hvec (fun x hx => c0 x (.inl hx)) (fun x o hx => c1 x o (.inl hx)) ha,
      vec_of_side hvec (fun x hx => c0 x (.inr hx)) (fun x o hx => c1 x o (.inr hx)) hb, by rw [hsub, hab]⟩

/-- variables and shocks have no value of their own -/
theorem TextBase.free {SS S : Type} {ops : Ops V} {m : ModelFile V} {ρ σ : String → Option V}
    {md : MState V SS S} {pss : List (List Int)} (h : TextBase ops m ρ σ md pss) {x k : String}
    (hx : m.DeclaredAs x k) (hk : k ≠ "parameters") : σ x = none := by
  by_contra hn
  rcases exec_support h.vals.model x hn with h1 | ⟨e, h1⟩
  · unfold ModelFile.paramVals at h1
    split at h1
    · rename_i hp
      have := List.inj_on_of_nodup_map h.acc.declNodup hx hp rfl
      exact hk (by simpa using this)
    · exact h1 rfl
  · obtain ⟨pre, post, hs⟩ := mem_localsOf h1
    exact (h.acc.localNew pre x e post hs).1 ⟨k, hx⟩

/-- the value of a steady residual function is the gap of its equation at rest -/
theorem TextBase.rest {SS S : Type} {ops : Ops V} (hsub : ∀ a b, ops.bin .sub a b = .ok (a - b))
    {m : ModelFile V} {ρ σ : String → Option V} {md : MState V SS S} {pss : List (List Int)}
    (h : TextBase ops m ρ σ md pss) (hp : PlainParams m) (he : PlainEquations m) {i : Nat} {l r : Expr V}
    {f : ResFun V} (hi : (equations m.stmts)[i]? = some (l, r)) (hf : md.steady[i]? = some f) {ss : List V}
    (hss : ss.length = (m.names "var").length) (v : V) :
    f ss = .ok v ↔ GapIs ops m σ (levelsAt ss noDev) l r v := by
  rw [h.rep.steady i l r f hi hf ss hss v]
  have hlr := List.mem_of_getElem? hi
  have entry : ∀ (c : Nat) x, (m.names "var")[c]? = some x → ss[c]? = some (vecEntry ss c) := by
    intro c x hc
    have : c < ss.length := by rw [hss]; exact (List.getElem?_eq_some_iff.mp hc).1
    simp [vecEntry, this]
  have zero : ∀ (c : Nat) v, ss[c]? = some v → v = vecEntry ss c + 0 := by
    intro c v hc; simp [vecEntry, hc]
  have names : ∀ x, (x ∈ l.vars ∨ x ∈ r.vars) → ∀ v, ReadsSteady σ (m.names "var") ss x v ↔
      NameNow σ (m.names "var") (m.names "varexo") (levelsAt ss noDev) x v := by
    intro x hx v
    constructor
    · rintro (h1 | ⟨h1, h2, h3⟩ | ⟨h1, h2⟩)
      · exact .param h1
      · rename_i c
        rw [zero c v h3]
        exact .endog (L := levelsAt ss noDev) h1 h2
      · rcases he.vars l r hlr x hx with h3 | h3 | h3 | h3
        · exact absurd (mem_names.mpr h3) h2
        · obtain ⟨j, hj, e⟩ := List.getElem_of_mem (mem_names.mpr h3)
          exact .shock (L := levelsAt ss noDev) h1 (by rw [List.getElem?_eq_getElem hj, e])
        · refine absurd h1 (exec_defined h.vals.model x (.inl ?_))
          unfold ModelFile.paramVals
          rw [if_pos (show (x, "parameters") ∈ m.decls from h3)]
          exact exec_defined h.vals.preamble x (.inr (hp.all x h3))
        · exact absurd h1 (exec_defined h.vals.model x (.inr h3))
    · rintro (h1 | ⟨h1, h2⟩ | ⟨h1, h2⟩)
      · exact .param h1
      · rename_i c
        refine .endog h1 h2 ?_
        rw [entry c x h2]
        simp [levelsAt, noDev]
      · have hn : x ∉ m.names "var" := by
          intro hm
          have := (List.nodup_append.mp (names_nodup h.acc)).2.2 x hm x (List.mem_of_getElem? h2)
          exact this rfl
        exact .shock h1 hn
  have dated : ∀ x o, ((x, o) ∈ l.pvars ∨ (x, o) ∈ r.pvars) → ∀ v, ReadsSteady σ (m.names "var") ss x v ↔
      NameAt (m.names "var") (levelsAt ss noDev) x o v := by
    intro x o hx v
    obtain ⟨hd, ho⟩ := he.pvars l r hlr x o hx
    have hfree := h.free hd (by decide)
    constructor
    · rintro (h1 | ⟨h1, h2, h3⟩ | ⟨h1, h2⟩)
      · rw [hfree] at h1; cases h1
      · rename_i c
        rw [zero c v h3]
        rcases ho with rfl | rfl
        · exact .before (L := levelsAt ss noDev) h2
        · exact .after (L := levelsAt ss noDev) h2
      · exact absurd (mem_names.mpr hd) h2
    · rintro (h2 | h2)
      all_goals
        rename_i c
        refine .endog hfree h2 ?_
        rw [entry c x h2]
        simp [levelsAt, noDev]
  constructor
  · rintro ⟨a, b, ha, hb, hab⟩
    rw [hsub] at hab
    exact ⟨a, b, ha.congr (fun x hx v => (names x (.inl hx) v).mp) (fun x o hx v => (dated x o (.inl hx) v).mp),
      hb.congr (fun x hx v => (names x (.inr hx) v).mp) (fun x o hx v => (dated x o (.inr hx) v).mp), Except.ok.inj hab⟩
  · rintro ⟨a, b, ha, hb, hab⟩
    exact ⟨a, b, ha.congr (fun x hx v => (names x (.inl hx) v).mpr) (fun x o hx v => (dated x o (.inl hx) v).mpr),
      hb.congr (fun x hx v => (names x (.inr hx) v).mpr) (fun x o hx v => (dated x o (.inr hx) v).mpr), by rw [hsub, hab]⟩

end

end Pynare
