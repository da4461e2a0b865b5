import Verif.Props.Whole
import Verif.Examples.Reading
import Verif.Examples.Linear
import Verif.Examples.StabilitySecond
/-!
# A model from its text to its solution, for the examples of C159 and C160
-/

namespace Pynare

/-- ASCII characters, rational numbers, and the keywords of model files -/
def ratCfg : LexCfg ℚ :=
  { isSpace := fileCfg.isSpace
    isAlpha := fileCfg.isAlpha
    isAlnum := fileCfg.isAlnum
    isDigit := fileCfg.isDigit
    toNum := fun cs => if cs = ['0', '.', '5'] then some (1 / 2) else if cs = ['0', '.', '2', '5'] then some (1 / 4)
      else ((asciiCfg true false).toNum cs).map fun n => (n : ℚ)
    dynare := true
    pyExp := false
    keywords := fileCfg.keywords }

theorem charOk_rat : CharOk ratCfg :=
  have h := charOk_ascii true false
  ⟨h.1, h.2, h.3, h.4, h.5, h.6, h.7, h.8⟩

/-- the token a word spells -/
def ratTok (w : List Char) : Tok ℚ :=
  match ratCfg.toNum w with
  | some v => .num v
  | none =>
    match tokOf w with
    | .num v => .num v
    | .sym s => .sym s
    | .kw s => .kw s
    | .id s => .id s
    | _ => .eof

/-- numbers for the parser -/
def ratPC : PCfg ℚ := ⟨fun n => .ok n.num.toNat, 0⟩

/-- a model with two states and a forward-looking variable -/
def whText : String :=
  "var a b c ; varexo u w ; model ; a = 0.5 * a ( - 1 ) + c + u + a ( - 1 ) * b ( - 1 ) ; " ++
  "b = a ( - 1 ) + 0.25 * b ( - 1 ) + w ; c = 0.5 * c ( + 1 ) + w + a ( - 1 ) * a ( - 1 ) ; end ; " ++
  "shocks ; var u ; stderr 1 ; var w ; stderr 0.5 ; end ;"

/-- its tokens -/
def whToks : List (Tok ℚ) := (wordsOf whText.toList).map ratTok

/-- what it contains -/
def whFile : ModelFile ℚ where
  decls := [("a", "var"), ("b", "var"), ("c", "var"), ("u", "varexo"), ("w", "varexo")]
  params := []
  args := []
  stmts := [
    .eqn (.var "a") (.bin .add (.bin .add (.bin .add (.bin .mul (.num (1 / 2)) (.pvar "a" (-1))) (.var "c")) (.var "u"))
      (.bin .mul (.pvar "a" (-1)) (.pvar "b" (-1)))) none,
    .eqn (.var "b") (.bin .add (.bin .add (.pvar "a" (-1)) (.bin .mul (.num (1 / 4)) (.pvar "b" (-1)))) (.var "w")) none,
    .eqn (.var "c") (.bin .add (.bin .add (.bin .mul (.num (1 / 2)) (.pvar "c" 1)) (.var "w"))
      (.bin .mul (.pvar "a" (-1)) (.pvar "a" (-1)))) none]
  actions := ⟨none, none, none, some ⟨[], [.stderr "u" (.num 1), .stderr "w" (.num (1 / 2))]⟩⟩

theorem wh_file : FileOf ratPC whToks whFile :=
  fileOf_check (noCall_of_check _ (by decide +kernel)) (by decide +kernel) (by decide +kernel)

theorem wh_written : Written ratCfg whToks (exText whText) [] := by
  have := written_spaced charOk_rat ((wordsOf whText.toList).map fun w => (ratTok w, w)) (by
    intro p hp
    obtain ⟨w, hw, rfl⟩ := List.mem_map.mp hp
    have h : ((wordsOf whText.toList).all fun w => spelled ratCfg (ratTok w) w) = true := by decide +kernel
    exact List.all_eq_true.mp h w hw)
  simpa [List.map_map, Function.comp_def, whToks, exText] using this

/-- what reading leaves open -/
def whRead : ReadEnv ℚ Unit Unit :=
  ⟨ratCfg, ratPC, .ok, ⟨ratOps, fun _ => true, fun _ => .error .syntaxError, id, fun _ _ _ _ _ => .ok (), fun _ _ => .ok ()⟩⟩

/-- the same model with another state space -/
def MState.withSpace {V SS S SS' S' : Type} (m : MState V SS S) (ss : SS') : MState V SS' S' :=
  ⟨m.name, m.endog, m.params, m.locals, m.exprs, m.stoch, m.determ, m.altered, m.sigma, m.indexes, m.steady, m.dynamic, ss,
    none⟩

/-- making a model comes down to making the state space -/
theorem fromOutline_space {V SS S SS' S' : Type} [Zero V] [One V] {env : MEnv V SS S} {env' : MEnv V SS' S'}
    (ho : env'.ops = env.ops) (hn : env'.okName = env.okName) {o : Outline V} {lang name : String} {m : MState V SS S}
    (h : fromOutline env o lang name = .ok m) {ss : SS'}
    (hs : env'.mkSS m.endog m.stoch.length m.indexes m.steady m.dynamic = .ok ss) :
    fromOutline env' o lang name = .ok (m.withSpace ss) := by
  unfold fromOutline at h ⊢
  obtain ⟨ls, h1, h⟩ := Except.bind_eq_ok h
  obtain ⟨lo, h2, h⟩ := Except.bind_eq_ok h
  split at h
  · cases h
  · rename_i hl
    obtain ⟨ps, h3, h⟩ := Except.bind_eq_ok h
    obtain ⟨pa, h4, h⟩ := Except.bind_eq_ok h
    unfold MState.build at h ⊢
    obtain ⟨a1, b1, h⟩ := Except.bind_eq_ok h
    obtain ⟨a2, b2, h⟩ := Except.bind_eq_ok h
    obtain ⟨a3, b3, h⟩ := Except.bind_eq_ok h
    obtain ⟨a4, b4, h⟩ := Except.bind_eq_ok h
    obtain ⟨a5, b5, h⟩ := Except.bind_eq_ok h
    obtain ⟨a6, b6, h⟩ := Except.bind_eq_ok h
    obtain ⟨a7, b7, h⟩ := Except.bind_eq_ok h
    cases h
    rw [ho, hn]
    simp only [h1, h2, if_neg hl, h3, h4, b1, b2, b3, b4, b5, b6, bind, Except.bind]
    rw [show env'.mkSS _ _ _ _ _ = _ from hs]
    rfl

/-- what the text of the example is read as -/
theorem wh_read : ∃ (o : Outline ℚ) (m : MState ℚ Unit Unit), createOutline ratOps .ok whFile = .ok o ∧
    fromOutline whRead.env o "dynare" "m" = .ok m ∧ m.endog.length = 3 ∧
    m.stoch = [⟨"u", "", some 1, none, none⟩, ⟨"w", "", some (1 / 2), none, none⟩] ∧
    m.altered = false ∧ buildLlx [[-1, 0], [-1, 0], [0, 1]] = .ok m.indexes ∧
    (∃ f₁ f₂ f₃, m.steady = [f₁, f₂, f₃] ∧ ∀ a b c, f₁ [a, b, c] = .ok (a - (1 / 2 * a + c + 0 + a * b)) ∧
      f₂ [a, b, c] = .ok (b - (a + 1 / 4 * b + 0)) ∧ f₃ [a, b, c] = .ok (c - (1 / 2 * c + 0 + a * a))) ∧
    ∃ g₁ g₂ g₃, m.dynamic = [g₁, g₂, g₃] ∧ ∀ am bm a b c cp u w,
      g₁ [am, bm, a, b, c, cp, u, w] = .ok (a - (1 / 2 * am + c + u + am * bm)) ∧
      g₂ [am, bm, a, b, c, cp, u, w] = .ok (b - (am + 1 / 4 * bm + w)) ∧
      g₃ [am, bm, a, b, c, cp, u, w] = .ok (c - (1 / 2 * cp + w + am * am)) :=
  ⟨_, _, rfl, rfl, rfl, rfl, rfl, rfl, ⟨_, _, _, rfl, fun _ _ _ => ⟨rfl, rfl, rfl⟩⟩,
    _, _, _, rfl, fun _ _ _ _ _ _ _ _ => ⟨rfl, rfl, rfl⟩⟩

/-! ### derivatives of quadratic functions -/

section
variable {V : Type} [Field V] [LinearOrder V] [IsStrictOrderedRing V]

/-- on vectors of length `n`, `f` is a quadratic function with symmetric second derivatives -/
def IsQuad (n : Nat) (g h : Nat → V) (f : List V → Except Err V) : Prop :=
  (∀ k < n, ∀ l < n, h (k * n + l) = h (l * n + k)) ∧ ∀ x : List V, x.length = n → f x = .ok (quadVal n g h x)

theorem IsQuad.taylor {g h : Nat → V} {f : List V → Except Err V} {p : List V} (hq : IsQuad p.length g h f) :
    IsTaylorAt f p (quadGrad p.length g h p) h := by
  obtain ⟨v₀, hv, ht⟩ := quadFun_taylor g h p
  refine ⟨v₀, by rw [hq.2 p rfl]; rw [quadFun, if_pos rfl] at hv; exact hv, fun ε hε => ?_⟩
  obtain ⟨δ, hδ, ht⟩ := ht ε hε
  refine ⟨δ, hδ, fun r h0 h1 x hx => ?_⟩
  obtain ⟨v, hv, hb⟩ := ht r h0 h1 x hx
  exact ⟨v, by rw [hq.2 x hx.1]; rw [quadFun, if_pos hx.1] at hv; exact hv, hb⟩

omit [IsStrictOrderedRing V] in
theorem entry_ext {a b : List V} (hl : a.length = b.length) (h : ∀ k < a.length, vecEntry a k = vecEntry b k) : a = b := by
  refine List.ext_getElem hl fun k h1 h2 => ?_
  simpa [vecEntry, h1, h2] using h k h1

/-- the derivatives -/
theorem IsQuad.grad {g h : Nat → V} {f : List V → Except Err V} {p : List V} (hq : IsQuad p.length g h f) :
    (idealAd : Autograd V).grad f p = .ok ((List.range p.length).map (quadGrad p.length g h p)) := by
  have hd := isTaylor_isDeriv hq.taylor
  obtain ⟨x, hx⟩ := idealAd_grad (f := f) (p := p)
    (g := (List.range p.length).map (quadGrad p.length g h p)) (by simp)
    (isDeriv_congr hd fun k hk => (entry_ofRange _ hk).symm)
  have he := idealAd_exact.grad _ _ _ hx
  rw [hx]
  refine congrArg _ (entry_ext (by simp [he.1]) fun k hk => ?_)
  rw [he.1] at hk
  rw [entry_ofRange _ hk]
  exact isDeriv_unique he.2 hd k hk

/-- derivatives of functions with vectors for values are unique -/
theorem isJacobian_unique {G : List V → Except Err (List V)} {p : List V} {h h' : List (List V)}
    (hj : IsJacobianAt G p h) (hj' : IsJacobianAt G p h') : ∀ k < h.length, ∀ l < p.length,
    vecEntry (h[k]?.getD []) l = vecEntry (h'[k]?.getD []) l := by
  have key : ∀ {h : List (List V)}, IsJacobianAt G p h → ∀ k < h.length,
      IsDerivAt (fun x => (G x).map fun v => vecEntry v k) p (vecEntry (h[k]?.getD [])) := by
    rintro h ⟨g₀, h0, hl, hb⟩ k hk
    refine ⟨vecEntry g₀ k, by simp [h0, Except.map], fun ε hε => ?_⟩
    obtain ⟨δ, hδ, hb⟩ := hb ε hε
    refine ⟨δ, hδ, fun r h0 h1 x hx => ?_⟩
    obtain ⟨g, hg, hb⟩ := hb r h0 h1 x hx
    exact ⟨vecEntry g k, by simp [hg, Except.map], hb k (by omega)⟩
  have hl : h.length = h'.length := by
    obtain ⟨a, a1, a2, -⟩ := hj
    obtain ⟨b, b1, b2, -⟩ := hj'
    rw [a1] at b1
    cases b1
    omega
  intro k hk
  exact isDeriv_unique (key hj k hk) (key hj' k (by omega))

/-- the second derivatives -/
def hessRows (n : Nat) (h : Nat → V) : List (List V) :=
  (List.range n).map fun k => (List.range n).map fun l => h (k * n + l)

omit [LinearOrder V] [IsStrictOrderedRing V] in
theorem hessRows_get {n : Nat} (h : Nat → V) {k : Nat} (hk : k < n) :
    ((hessRows n h)[k]?.getD []) = (List.range n).map fun l => h (k * n + l) := by
  simp [hessRows, hk]

theorem IsQuad.jacobian {g h : Nat → V} {f : List V → Except Err V} {p : List V} (hq : IsQuad p.length g h f) :
    (idealAd : Autograd V).jacobian ((idealAd : Autograd V).grad f) p = .ok (hessRows p.length h) := by
  have hrow : ∀ row ∈ hessRows p.length h, row.length = p.length := by
    intro row hrow
    obtain ⟨k, -, rfl⟩ := List.mem_map.mp hrow
    simp
  have hj : IsJacobianAt ((idealAd : Autograd V).grad f) p (hessRows p.length h) := by
    refine ⟨_, hq.grad, by simp [hessRows], fun ε hε => ⟨1, one_pos, fun r hr _ x hx => ?_⟩⟩
    have hqx := hq
    rw [← hx.1] at hqx
    refine ⟨_, hqx.grad, fun k hk => ?_⟩
    rw [hx.1]
    have hk' : k < p.length := by simpa using hk
    rw [entry_ofRange _ hk', entry_ofRange _ hk', hessRows_get h hk']
    refine le_trans (le_of_eq (abs_eq_zero.mpr ?_)) (mul_nonneg hε.le hr)
    unfold quadGrad
    simp only [sumTo_eq]
    rw [add_sub_add_left_eq_sub, ← Finset.sum_sub_distrib, ← Finset.sum_sub_distrib]
    refine Finset.sum_eq_zero fun l hl => ?_
    have hl' := Finset.mem_range.mp hl
    rw [entry_ofRange _ hl', ← hq.1 k hk' l hl']
    ring
  obtain ⟨y, hy⟩ := idealAd_jacobian hrow hj
  obtain ⟨y1, y2⟩ := idealAd_exact.jacobian _ _ _ hy
  have hu := isJacobian_unique hj y2
  have hl : y.length = (hessRows p.length h).length := by
    obtain ⟨a, a1, a2, -⟩ := hj
    obtain ⟨b, b1, b2, -⟩ := y2
    rw [a1] at b1
    cases b1
    omega
  rw [hy]
  refine congrArg _ (List.ext_getElem hl fun k h1 h2 => entry_ext ?_ fun l hl => ?_)
  · rw [y1 _ (List.getElem_mem h1), hrow _ (List.getElem_mem h2)]
  · rw [y1 _ (List.getElem_mem h1)] at hl
    have := hu k h2 l hl
    rw [List.getElem?_eq_getElem h1, List.getElem?_eq_getElem h2] at this
    exact this.symm

theorem IsQuad.second {n : Nat} {g h : Nat → V} {f : List V → Except Err V} (hq : IsQuad n g h f)
    {p : List V} (hp : p.length = n) : (idealAd : Autograd V).SecondExactAt f p := by
  subst hp
  intro y hy
  rw [hq.jacobian] at hy
  cases hy
  refine ⟨_, hq.grad, by simp [hessRows], fun k hk l hl => ?_, fun H hH => ?_⟩
  · rw [hessRows_get h hk, hessRows_get h hl, entry_ofRange _ hl, entry_ofRange _ hk]
    exact hq.1 k hk l hl
  · obtain ⟨v₀, hv, ht⟩ := hq.taylor
    refine ⟨v₀, hv, fun ε hε => ?_⟩
    obtain ⟨δ, hδ, ht⟩ := ht ε hε
    refine ⟨δ, hδ, fun r h0 h1 x hx => ?_⟩
    obtain ⟨v, hv, hb⟩ := ht r h0 h1 x hx
    refine ⟨v, hv, le_trans (le_of_eq ?_) hb⟩
    congr 2
    · congr 1
      simp only [sumTo_eq]
      refine Finset.sum_congr rfl fun k hk => ?_
      rw [entry_ofRange _ (Finset.mem_range.mp hk)]
    · congr 1
      simp only [sumTo_eq]
      refine Finset.sum_congr rfl fun k hk => Finset.sum_congr rfl fun l hl => ?_
      have hk' := Finset.mem_range.mp hk
      have hl' := Finset.mem_range.mp hl
      rw [hH k hk' l hl', hessRows_get h hk', entry_ofRange _ hl']

end

/-! ### the libraries of the example -/

open Classical in
/-- a minimiser that looks at zero -/
noncomputable def zeroMin : Minimizer ℚ := fun _ obj x0 =>
  if ∃ w, obj (List.replicate x0.length 0) = .ok w ∧ ∀ y v, y.length = x0.length → obj y = .ok v → w ≤ v then
    .ok ⟨List.replicate x0.length 0, true⟩
  else .error .valueError

theorem zeroMin_finds : FindsMinimum zeroMin := by
  intro a obj x0 r h
  unfold zeroMin at h
  split at h
  · rename_i hx
    cases h
    exact ⟨by simp, hx⟩
  · cases h

/-- the libraries -/
noncomputable def whLib : Libs ℚ := ⟨chLa, triQz, idealAd, zeroMin, 0⟩

/-- the first derivatives of the equations -/
def whG : List (List ℚ) := [[-1 / 2, 0, 1, 0, -1, 0, -1, 0], [-1, -1 / 4, 0, 1, 0, 0, 0, -1], [0, 0, 0, 0, 1, -1 / 2, 0, -1]]
/-- the second derivatives of the first equation -/
def whD₁ : Nat → ℚ := fun j => if j = 1 ∨ j = 8 then -1 else 0
/-- the second derivatives of the third equation -/
def whD₃ : Nat → ℚ := fun j => if j = 0 then -2 else 0
/-- the second derivatives as the rows of an array -/
def whH : List (List ℚ) := [(List.range 64).map whD₁, List.replicate 64 0, (List.range 64).map whD₃]

/-- everything is solved -/
def whAll : Except Err (Space ℚ × Arr ℚ × Arr ℚ × SecondNd ℚ) := do
  let s ← Space.create chLa so2T.toTyper (rowsArr 8 whG)
  let (gy, gu) ← solveFirstOrder chLa so2T 2 s
  let so ← solveSecondOrder chLa triQz (1 / 2) so2T.toTyper 2 (rowsArr 8 whG) (rowsArr 64 whH)
    ⟨2, 2, sigmaDiag [⟨"u", "", some 1, none, none⟩, ⟨"w", "", some (1 / 2), none, none⟩]⟩ (Nd.mat gy).squeeze
    (Nd.mat gu).squeeze
  .ok (s, gy, gu, so)

theorem wh_solved : ∃ s gy gu so, whAll = .ok (s, gy, gu, so) ∧ s.parts.Separated := by
  obtain ⟨⟨s, gy, gu, so⟩, h0, h⟩ := ok_of_check (x := whAll)
    (p := fun r => r.1.parts.eigs == [stab, stab, expl]) (by decide +kernel)
  refine ⟨s, gy, gu, so, h0, .inl ⟨expl, ?_, rfl⟩⟩
  rw [eq_of_beq h]
  simp

theorem wh_quad {g₁ g₂ g₃ : ResFun ℚ} (h : ∀ am bm a b c cp u w,
      g₁ [am, bm, a, b, c, cp, u, w] = .ok (a - (1 / 2 * am + c + u + am * bm)) ∧
      g₂ [am, bm, a, b, c, cp, u, w] = .ok (b - (am + 1 / 4 * bm + w)) ∧
      g₃ [am, bm, a, b, c, cp, u, w] = .ok (c - (1 / 2 * cp + w + am * am))) :
    IsQuad 8 (vecEntry [-1 / 2, 0, 1, 0, -1, 0, -1, 0]) whD₁ g₁ ∧
    IsQuad 8 (vecEntry [-1, -1 / 4, 0, 1, 0, 0, 0, -1]) (fun _ => 0) g₂ ∧
    IsQuad 8 (vecEntry [0, 0, 0, 0, 1, -1 / 2, 0, -1]) whD₃ g₃ := by
  refine ⟨⟨by decide +kernel, fun x hx => ?_⟩, ⟨fun _ _ _ _ => rfl, fun x hx => ?_⟩, ⟨by decide +kernel, fun x hx => ?_⟩⟩
  all_goals
    match x, hx with
    | [am, bm, a, b, c, cp, u, w], _ =>
      obtain ⟨h1, h2, h3⟩ := h am bm a b c cp u w
      first | rw [h1] | rw [h2] | rw [h3]
      congr 1
      simp [quadVal, sumTo, vecEntry, whD₁, whD₃]
      ring

end Pynare
