import Verif.Lemmas.SecondOrder
/-!
# Lemmas about the second-order solution: the system of equations
-/

namespace Pynare

variable {V : Type} [CommRing V] [DecidableEq V]

set_option linter.unusedSectionVars false

namespace Typer

/-- the number of static variables -/
def nS (t : Typer) : Nat := t.static.length
/-- the number of state variables -/
def nT (t : Typer) : Nat := t.pureBackward.length + t.mixed.length
/-- the number of forward-looking variables -/
def nF (t : Typer) : Nat := t.mixed.length + t.pureForward.length
/-- the position of the first forward-looking variable -/
def f0 (t : Typer) : Nat := t.static.length + t.pureBackward.length

end Typer

theorem cols_e {a b : Arr V} {cs : List Nat} (h : a.cols cs = .ok b) :
    b.r = a.r ∧ b.c = cs.length ∧ ∀ i j, b.e i j = a.e i (cs[j]?.getD 0) := by
  unfold Arr.cols at h
  split at h
  · rw [← Except.ok.inj h]
    exact ⟨rfl, rfl, fun _ _ => rfl⟩
  · cases h

theorem idxOf_range' (j : Nat) : ∀ (k s : Nat),
    (List.range' s k).idxOf? j = if s ≤ j ∧ j < s + k then some (j - s) else none := by
  intro k
  induction k with
  | zero => intro s; rw [if_neg (by omega)]; rfl
  | succ k ih =>
    intro s
    rw [List.range'_succ, List.idxOf?_cons, ih]
    by_cases h : s = j
    · subst h
      simp
    · have : (s == j) = false := by simpa using h
      rw [this]
      simp only [Bool.false_eq_true, if_false]
      by_cases h2 : s + 1 ≤ j ∧ j < s + 1 + k
      · rw [if_pos h2, if_pos (by omega)]
        simp only [Option.map_some]
        congr 1
        omega
      · rw [if_neg h2, if_neg (by omega)]
        simp

section
variable {t : Typer} (g : Groups t) (hs : t.nStatic = t.static.length)
include g

theorem currentJac_e (J : Arr V) {i j : Nat} (hj : j < t.n) : (currentJac t J).e i j = J.e i (t.col 1 j) := by
  unfold currentJac
  simp only
  rw [cell_some (g.cur j hj)]

include hs

theorem tloc_eq : t.tloc = List.range' t.nS t.nT := by
  unfold Typer.tloc
  rw [hs, (C31_sizes t).2.2.2.1]
  rfl

theorem systemA_ok (hn : t.n ≠ 1) {J foreJac A : Arr V} {gyf : Nd V} {G : Nat → Nat → V}
    (hf1 : foreJac.r = J.r) (hf2 : foreJac.c = t.nF) (hg : gyf.Is t.nF t.nT G)
    (h : systemA t J foreJac gyf = .ok A) :
    J.r = t.n ∧ (t.nF ≠ 1 ∨ t.nT ≠ 1) ∧ A.r = t.n ∧ A.c = t.n ∧ ∀ i < t.n, ∀ j < t.n,
      A.e i j = J.e i (t.col 1 j) + if t.nS ≤ j ∧ j < t.nS + t.nT then
        sumTo t.nF fun f => foreJac.e i f * G f (j - t.nS) else 0 := by
  unfold systemA at h
  split at h
  · cases h
  rename_i hJ
  have hJ : J.r = t.n := Classical.not_not.mp hJ
  obtain ⟨upd, hu, h⟩ := Except.bind_eq_ok h
  rw [tloc_eq g hs] at h
  refine ⟨hJ, ?_⟩
  by_cases ht : t.nT = 1
  · rw [ht] at h
    simp only [List.range'_one] at h
    split at h
    · rename_i hp
      obtain ⟨s, hz, h1⟩ := Except.bind_eq_ok h
      obtain ⟨w, hw, h2⟩ := Except.bind_eq_ok h1
      by_cases hf : t.nF = 1
      · exfalso
        rw [ht, hf] at hg
        have e1 : (Nd.mat foreJac).item? = none := by
          simp only [Nd.item?]
          rw [if_neg (by omega)]
        cases gyf with
        | num x => exact hg
        | mat a => exact hg.1 rfl
        | vec n e =>
          have e2 : (Nd.vec n e).item? = some (e 0) := by
            simp only [Nd.item?]
            rw [if_pos hg.2.1]
          unfold Nd.matmulScalar at hu
          rw [e1, e2] at hu
          simp only [Nd.map] at hu
          rw [← Except.ok.inj hu] at hz
          simp only [Nd.zip, Nd.zip2, Nd.row2] at hz
          obtain ⟨r, hr, hz⟩ := Except.bind_eq_ok hz
          obtain ⟨c, hc, hz⟩ := Except.bind_eq_ok hz
          have : r = t.n := by
            unfold Nd.axis at hr
            split at hr
            · have := Except.ok.inj hr
              omega
            · have := Except.ok.inj hr
              omega
          rw [← Except.ok.inj hz] at hw
          simp only [Nd.intoVec] at hw
          split at hw
          · omega
          · cases hw
      · refine ⟨.inl hf, ?_⟩
        rw [Nd.matmulScalar_is hg (by omega) (.inl hf)] at hu
        obtain ⟨m1, m2⟩ := hg.matmul hu
        rw [ht, hf1, hJ] at m2
        have hv : (Nd.vec t.n fun i => (currentJac t J).e i t.nS).Is t.n 1
            (fun i _ => (currentJac t J).e i t.nS) := ⟨rfl, rfl, fun _ _ => rfl⟩
        obtain ⟨z, hz', hzi⟩ := hv.zip m2 (· + ·)
        rw [hz'] at hz
        have := Except.ok.inj hz
        subst this
        rw [← Except.ok.inj h2]
        refine ⟨rfl, rfl, fun i hi j hj => ?_⟩
        have hw' : w i = (currentJac t J).e i t.nS + sumTo t.nF fun k => foreJac.e i k * G k 0 := by
          cases z with
          | num x => exact hzi.elim
          | mat a => exact absurd rfl hzi.1
          | vec n e =>
            obtain ⟨z1, z2, z3⟩ := hzi
            simp only [Nd.intoVec] at hw
            rw [if_pos (.inl z2)] at hw
            rw [← Except.ok.inj hw]
            dsimp only
            rw [z2, Nd.along_self hi]
            exact z3 i hi
        dsimp only
        by_cases hjp : j = t.nS
        · rw [if_pos hjp, hw', ht, if_pos (by omega), currentJac_e g J hp, hjp, Nat.sub_self]
        · rw [if_neg hjp, ht, if_neg (by omega), add_zero, currentJac_e g J hj]
    · cases h
  · refine ⟨.inr ht, ?_⟩
    have h : (do
        let sub ← (currentJac t J).cols (List.range' t.nS t.nT)
        let s ← Nd.zip (· + ·) (.mat sub) upd
        let w ← s.intoMat t.n (List.range' t.nS t.nT).length
        (.ok ⟨t.n, t.n, fun i j => match (List.range' t.nS t.nT).idxOf? j with
          | some q => w i q
          | none => (currentJac t J).e i j⟩ : Except Err (Arr V))) = .ok A := by
      rcases hT : t.nT with _ | _ | k
      · rw [hT] at h; exact h
      · exact absurd hT ht
      · rw [hT] at h; exact h
    rw [Nd.matmulScalar_is hg (by omega) (.inr ht)] at hu
    obtain ⟨m1, m2⟩ := hg.matmul hu
    rw [hf1, hJ] at m2
    obtain ⟨sub, hsub, h1⟩ := Except.bind_eq_ok h
    obtain ⟨s, hz, h2⟩ := Except.bind_eq_ok h1
    obtain ⟨w, hw, h3⟩ := Except.bind_eq_ok h2
    obtain ⟨c1, c2, c3⟩ := cols_e hsub
    have hv : (Nd.mat sub).Is t.n t.nT (fun i j => (currentJac t J).e i (t.nS + j)) := by
      refine ⟨ht, by rw [c1]; rfl, by rw [c2, List.length_range'], fun i _ j hj => ?_⟩
      rw [c3]
      rw [List.getElem?_range' hj]
      simp
    obtain ⟨z, hz', hzi⟩ := hv.zip m2 (· + ·)
    rw [hz'] at hz
    have := Except.ok.inj hz
    subst this
    rw [← Except.ok.inj h3]
    refine ⟨rfl, rfl, fun i hi j hj => ?_⟩
    have hw' : ∀ q < t.nT, w i q = (currentJac t J).e i (t.nS + q) +
        sumTo t.nF fun k => foreJac.e i k * G k q := by
      intro q hq
      cases z with
      | num x => exact hzi.elim
      | vec n e => exact absurd hzi.1 ht
      | mat a =>
        obtain ⟨z1, z2, z3, z4⟩ := hzi
        simp only [Nd.intoMat, Nd.row2, List.length_range'] at hw
        rw [if_pos ⟨.inl z2, .inl z3⟩] at hw
        rw [← Except.ok.inj hw]
        dsimp only
        rw [z2, z3, Nd.along_self hi, Nd.along_self hq]
        exact z4 i hi q hq
    dsimp only
    rw [idxOf_range']
    by_cases hjp : t.nS ≤ j ∧ j < t.nS + t.nT
    · rw [if_pos hjp, if_pos hjp]
      dsimp only
      rw [hw' _ (by omega), Nat.add_sub_cancel' hjp.1, currentJac_e g J hj]
    · rw [if_neg hjp, if_neg hjp]
      dsimp only
      rw [add_zero, currentJac_e g J hj]

end

theorem systemC_ok {t : Typer} {foreJac C : Arr V} (h : systemC t foreJac = .ok C) :
    foreJac.c ≠ 0 ∧ C.r = t.n ∧ C.c = t.n ∧
      ∀ i j, C.e i j = if t.n - foreJac.c ≤ j then foreJac.e i (j - (t.n - foreJac.c)) else 0 := by
  unfold systemC at h
  split at h
  · cases h
  rename_i hc
  rw [← Except.ok.inj h]
  exact ⟨fun h0 => hc (.inr h0), rfl, rfl, fun _ _ => rfl⟩

section
variable {t : Typer} (g : Groups t) (hs : t.nStatic = t.static.length)
include g hs

/-- the arrays of the system that determines the second-order terms -/
theorem setupSystem_ok (hn : t.n ≠ 1) {J A C : Arr V} {D gy : Nd V} {G : Nat → Nat → V}
    (hgy : gy.Is t.n t.nT G) (h : setupSystem t J gy = .ok (A, C, D)) :
    J.r = t.n ∧ (t.nF ≠ 1 ∨ t.nT ≠ 1) ∧ t.nF ≠ 0 ∧
    (A.r = t.n ∧ A.c = t.n ∧ ∀ i < t.n, ∀ j < t.n,
      A.e i j = J.e i (t.col 1 j) + if t.nS ≤ j ∧ j < t.nS + t.nT then
        sumTo t.nF fun f => J.e i (t.col 2 (t.f0 + f)) * G (t.f0 + f) (j - t.nS) else 0) ∧
    (C.r = t.n ∧ C.c = t.n ∧ ∀ i < t.n, ∀ j < t.n,
      C.e i j = if t.f0 ≤ j then J.e i (t.col 2 j) else 0) ∧
    (D.to2.r = t.nT * t.nT ∧ D.to2.c = t.nT * t.nT ∧ ∀ k < t.nT * t.nT, ∀ l < t.nT * t.nT,
      D.to2.e k l = G (t.nS + l / t.nT) (k / t.nT) * G (t.nS + l % t.nT) (k % t.nT)) := by
  have gt := g.total
  unfold setupSystem at h
  obtain ⟨x, -, h⟩ := Except.bind_eq_ok h
  obtain ⟨fj, hfj, h⟩ := Except.bind_eq_ok h
  obtain ⟨gyf, hgf, h⟩ := Except.bind_eq_ok h
  obtain ⟨A', hA, h⟩ := Except.bind_eq_ok h
  obtain ⟨C', hC, h⟩ := Except.bind_eq_ok h
  obtain ⟨gs, hgs, h⟩ := Except.bind_eq_ok h
  have := Except.ok.inj h
  simp only [Prod.mk.injEq] at this
  obtain ⟨e1, e2, e3⟩ := this
  subst e1 e2 e3
  obtain ⟨f1, f2, f3⟩ := cols_e hfj
  rw [drCols_two g] at f2 f3
  rw [List.length_map, List.length_range'] at f2
  have f2 : fj.c = t.nF := f2
  have f3 : ∀ i f, f < t.nF → fj.e i f = J.e i (t.col 2 (t.f0 + f)) := by
    intro i f hf
    rw [f3, List.getElem?_map, List.getElem?_range' (show f < t.mixed.length + t.pureForward.length from hf)]
    simp [Typer.f0]
  have hgf := hgy.rows hgf
  rw [drMask_two g] at hgf
  rw [List.length_range'] at hgf
  have hgf : gyf.Is t.nF t.nT fun f j => G (t.f0 + f) j := by
    refine hgf.congr fun i hi j _ => ?_
    rw [List.getElem?_range' hi]
    simp [Typer.f0]
  obtain ⟨a1, a2, a3, a4, a5⟩ := systemA_ok g hs hn f1 f2 hgf hA
  obtain ⟨c1, c2, c3, c4⟩ := systemC_ok hC
  rw [f2] at c1 c4
  refine ⟨a1, a2, c1, ⟨a3, a4, fun i hi j hj => ?_⟩, ⟨c2, c3, fun i hi j hj => ?_⟩, ?_⟩
  · rw [a5 i hi j hj]
    congr 1
    split
    · exact sumTo_congr fun f hf => by rw [f3 i f hf]
    · rfl
  · have : t.n - t.nF = t.f0 := by unfold Typer.nF Typer.f0; omega
    rw [c4, this]
    split
    · rename_i hle
      rw [f3 _ _ (by unfold Typer.nF Typer.f0 at *; omega), Nat.add_sub_cancel' hle]
    · rfl
  · rw [tloc_eq g hs] at hgs
    by_cases ht : t.nT = 1
    · rw [ht] at hgs hgy ⊢
      rw [(Nd.loc_one hgy hgs).1 rfl]
      refine ⟨rfl, rfl, fun k hk l hl => ?_⟩
      have e1 : k = 0 := by omega
      have e2 : l = 0 := by omega
      subst e1 e2
      rfl
    · have hm := Nd.loc_many hgy ht hgs
      cases gs with
      | num x => exact hm.elim
      | vec n e => exact absurd hm.1 ht
      | mat a =>
        obtain ⟨m1, m2, m3, m4⟩ := hm
        refine ⟨?_, ?_, fun k hk l hl => ?_⟩
        · show a.c * a.c = _
          rw [m3]
        · show a.r * a.r = _
          rw [m2]
        · show a.e (l / a.r) (k / a.c) * a.e (l % a.r) (k % a.c) = _
          have hpos : 0 < t.nT := by
            rcases Nat.eq_zero_or_pos t.nT with h0 | h0
            · rw [h0] at hk; omega
            · exact h0
          rw [m2, m3, m4 _ (Nat.div_lt_of_lt_mul hl) _ (Nat.div_lt_of_lt_mul hk),
            m4 _ (Nat.mod_lt _ hpos) _ (Nat.mod_lt _ hpos)]

end

/-! ### derivatives of the arguments of the equations -/

/-- how the arguments of the equations depend on the states -/
def zxEnt (t : Typer) (G : Nat → Nat → V) (p j : Nat) : V :=
  if p < t.nT then if p = j then 1 else 0
  else if p < t.nT + t.n then G (p - t.nT) j
  else if p < t.nT + t.n + t.nF then sumTo t.nT fun k => G (t.f0 + (p - (t.nT + t.n))) k * G (t.nS + k) j
  else 0

/-- how the arguments of the equations depend on the shocks -/
def zuEnt (t : Typer) (G U : Nat → Nat → V) (p j : Nat) : V :=
  if p < t.nT then 0
  else if p < t.nT + t.n then U (p - t.nT) j
  else if p < t.nT + t.n + t.nF then sumTo t.nT fun k => G (t.f0 + (p - (t.nT + t.n))) k * U (t.nS + k) j
  else if p - (t.nT + t.n + t.nF) = j then 1 else 0

section
variable {t : Typer} (g : Groups t) (hs : t.nStatic = t.static.length)
include g

theorem rows_cur {x y : Nd V} {c : Nat} {f : Nat → Nat → V} (h : x.Is t.n c f) (hy : x.rows (t.drMask 1) = .ok y) :
    y.Is t.n c f := by
  have := h.rows hy
  rw [drMask_one g] at this
  rw [List.length_range'] at this
  refine this.congr fun i hi j _ => ?_
  rw [List.getElem?_range' hi]
  simp

theorem rows_fore {x y : Nd V} {c : Nat} {f : Nat → Nat → V} (h : x.Is t.n c f) (hy : x.rows (t.drMask 2) = .ok y) :
    y.Is t.nF c fun i j => f (t.f0 + i) j := by
  have := h.rows hy
  rw [drMask_two g] at this
  rw [List.length_range'] at this
  refine this.congr fun i hi j _ => ?_
  rw [List.getElem?_range' hi]
  simp [Typer.f0]

include hs

theorem hessCoefsDx_ok (hn : t.n ≠ 1) (hn0 : t.n ≠ 0) (hf : t.nF ≠ 1 ∨ t.nT ≠ 1) (ht0 : t.nT ≠ 0) {nExog : Nat}
    {gy zx : Nd V} {G : Nat → Nat → V} (hgy : gy.Is t.n t.nT G) (h : hessCoefsDx t nExog gy = .ok zx) :
    zx.Is (t.nT + t.n + t.nF + nExog) t.nT (zxEnt t G) := by
  unfold hessCoefsDx at h
  obtain ⟨gc, hgc, h⟩ := Except.bind_eq_ok h
  obtain ⟨gf, hgf, h⟩ := Except.bind_eq_ok h
  obtain ⟨gs, hgs, h⟩ := Except.bind_eq_ok h
  obtain ⟨fo, hfo, h⟩ := Except.bind_eq_ok h
  have hgc := rows_cur g hgy hgc
  have hgf := rows_fore g hgy hgf
  rw [tloc_eq g hs] at hgs
  have hF : fo.Is t.nF t.nT fun i j => sumTo t.nT fun k => G (t.f0 + i) k * G (t.nS + k) j := by
    by_cases ht : t.nT = 1
    · rw [ht] at hgs hgy hgf ⊢
      have hgs := (Nd.loc_one hgy hgs).1 rfl
      have e2 : gs.item? = some (G t.nS 0) := by rw [hgs]; rfl
      cases gf with
      | num x => exact hgf.elim
      | mat a => exact absurd rfl hgf.1
      | vec n e =>
        have e1 : (Nd.vec n e).item? = none := by
          have := hgf.2.1
          simp only [Nd.item?]
          rw [if_neg (by omega)]
        unfold Nd.matmulScalar at hfo
        rw [e1, e2] at hfo
        rw [← Except.ok.inj hfo]
        refine (hgf.map (· * G t.nS 0)).congr fun i _ j hj => ?_
        have : j = 0 := by omega
        subst this
        simp [sumTo]
    · have hm := Nd.loc_many hgy ht hgs
      cases gf with
      | num x => exact hgf.elim
      | vec n e => exact absurd hgf.1 ht
      | mat a =>
        have e1 : (Nd.mat a).item? = none := by
          have := hgf.2.2.1
          simp only [Nd.item?]
          rw [if_neg (by omega)]
        have e2 : gs.item? = none := by
          cases gs with
          | num x => exact hm.elim
          | vec n e => exact absurd hm.1 ht
          | mat b =>
            have := hm.2.1
            simp only [Nd.item?]
            rw [if_neg (by omega)]
        unfold Nd.matmulScalar at hfo
        rw [e1, e2] at hfo
        obtain ⟨m1, m2⟩ := hm.matmul hfo
        rw [hgf.2.1] at m2
        refine m2.congr fun i hi j hj => sumTo_congr fun k hk => ?_
        rw [hgf.2.2.2 i hi k hk]
  obtain ⟨-, -, -, hz⟩ := stack4_ok h
  obtain ⟨c1, c2, c3⟩ := hgc.to2
  obtain ⟨o1, o2, o3⟩ := hF.to2
  have hb : t.nBackward = t.nT := (C31_sizes t).2.2.2.1
  have e1 : (Nd.mat (Arr.eye t.nBackward t.nBackward 0) : Nd V).to2.r = t.nT := hb
  have e2 : (Nd.mat (Arr.eye t.nBackward t.nBackward 0) : Nd V).to2.c = t.nT := hb
  have e3 : (Nd.mat (Arr.zeros nExog t.nBackward) : Nd V).to2.r = nExog := rfl
  rw [e1, e2, e3, c1, o1] at hz
  refine (hz (by omega)).congr fun i hi j hj => ?_
  unfold zxEnt
  split
  · show (if j = i + 0 then 1 else 0 : V) = _
    simp only [Nat.add_zero, eq_comm]
  · split
    · exact c3 _ (by omega) j hj
    · split
      · exact o3 _ (by omega) j hj
      · rfl

theorem hessCoefsDu_ok (hn : t.n ≠ 1) (hn0 : t.n ≠ 0) (hf : t.nF ≠ 1 ∨ t.nT ≠ 1) (ht0 : t.nT ≠ 0) {nExog : Nat}
    {gy gu zu : Nd V} {G U : Nat → Nat → V} (hgy : gy.Is t.n t.nT G) (hgu : gu.Is t.n nExog U)
    (h : hessCoefsDu t nExog gy gu = .ok zu) :
    zu.Is (t.nT + t.n + t.nF + nExog) nExog (zuEnt t G U) := by
  unfold hessCoefsDu at h
  obtain ⟨gc, hgc, h⟩ := Except.bind_eq_ok h
  obtain ⟨gf, hgf, h⟩ := Except.bind_eq_ok h
  obtain ⟨gs, hgs, h⟩ := Except.bind_eq_ok h
  obtain ⟨fo, hfo, h⟩ := Except.bind_eq_ok h
  have hgc := rows_cur g hgu hgc
  have hgf := rows_fore g hgy hgf
  rw [tloc_eq g hs] at hgs
  obtain ⟨q1, q2, q3, hz⟩ := stack4_ok h
  have hF : fo.to2.r = t.nF ∧ fo.to2.c = nExog ∧ ∀ i < t.nF, ∀ j < nExog,
      fo.to2.e i j = sumTo t.nT fun k => G (t.f0 + i) k * U (t.nS + k) j := by
    by_cases ht : t.nT = 1
    · rw [ht] at hgs hgf hf ⊢
      have hf : t.nF ≠ 1 := by omega
      obtain ⟨l1, l2⟩ := Nd.loc_one hgu hgs
      cases gf with
      | num x => exact hgf.elim
      | mat a => exact absurd rfl hgf.1
      | vec n e =>
        obtain ⟨-, rfl, hge⟩ := hgf
        have e1 : (Nd.vec t.nF e).item? = none := by
          simp only [Nd.item?]
          rw [if_neg hf]
        by_cases hc : nExog = 1
        · have e2 : gs.item? = some (U t.nS 0) := by rw [l1 hc]; rfl
          have hms : Nd.matmulScalar (.vec t.nF e) gs = .ok ((Nd.vec t.nF e).map (· * U t.nS 0)) := by
            unfold Nd.matmulScalar
            rw [e1, e2]
          unfold matmulOrOuter at hfo
          rw [hms] at hfo
          rw [← Except.ok.inj hfo]
          refine ⟨rfl, hc.symm, fun i hi j hj => ?_⟩
          have : j = 0 := by omega
          subst this
          show e i * U t.nS 0 = _
          rw [hge i hi]
          simp [sumTo]
        · obtain ⟨e', rfl, he'⟩ := l2 hc
          have e2 : (Nd.vec nExog e').item? = none := by
            simp only [Nd.item?]
            rw [if_neg hc]
          unfold matmulOrOuter Nd.matmulScalar at hfo
          rw [e1, e2] at hfo
          simp only [Nd.matmul] at hfo
          by_cases hne : t.nF = nExog
          · exfalso
            rw [if_pos hne] at hfo
            simp only at hfo
            rw [← Except.ok.inj hfo] at q2
            exact hc q2
          · rw [if_neg hne] at hfo
            simp only at hfo
            rw [← Except.ok.inj hfo]
            refine ⟨rfl, rfl, fun i hi j hj => ?_⟩
            show e i * e' j = _
            rw [hge i hi, he' j hj]
            simp [sumTo]
    · have hm := Nd.loc_many hgu ht hgs
      cases gf with
      | num x => exact hgf.elim
      | vec n e => exact absurd hgf.1 ht
      | mat a =>
        have e1 : (Nd.mat a).item? = none := by
          have := hgf.2.2.1
          simp only [Nd.item?]
          rw [if_neg (by omega)]
        have e2 : gs.item? = none := by
          cases gs with
          | num x => exact hm.elim
          | vec n e =>
            have := hm.2.1
            simp only [Nd.item?]
            rw [if_neg (by omega)]
          | mat b =>
            have := hm.2.1
            simp only [Nd.item?]
            rw [if_neg (by omega)]
        have hms : Nd.matmulScalar (.mat a) gs = Nd.matmul (.mat a) gs := by
          unfold Nd.matmulScalar
          rw [e1, e2]
        have hok : ∃ z, Nd.matmul (.mat a) gs = .ok z := by
          have := hgf.2.2.1
          cases gs with
          | num x => exact hm.elim
          | vec n e =>
            have := hm.2.1
            simp only [Nd.matmul]
            rw [if_pos (by omega)]
            exact ⟨_, rfl⟩
          | mat b =>
            have := hm.2.1
            simp only [Nd.matmul, Arr.dot]
            rw [if_pos (by omega)]
            exact ⟨_, rfl⟩
        obtain ⟨z, hzz⟩ := hok
        unfold matmulOrOuter at hfo
        rw [hms, hzz] at hfo
        have := Except.ok.inj hfo
        subst this
        obtain ⟨m1, m2⟩ := hm.matmul hzz
        rw [hgf.2.1] at m2
        have m2 := m2.congr (g := fun i j => sumTo t.nT fun k => G (t.f0 + i) k * U (t.nS + k) j)
          (fun i hi j hj => sumTo_congr fun k hk => by rw [hgf.2.2.2 i hi k hk])
        exact m2.to2
  obtain ⟨c1, c2, c3⟩ := hgc.to2
  obtain ⟨o1, o2, o3⟩ := hF
  have hb : t.nBackward = t.nT := (C31_sizes t).2.2.2.1
  have e1 : (Nd.mat (Arr.zeros t.nBackward nExog) : Nd V).to2.r = t.nT := hb
  have e2 : (Nd.mat (Arr.zeros t.nBackward nExog) : Nd V).to2.c = nExog := rfl
  have e3 : (Nd.mat (Arr.eye nExog nExog 0) : Nd V).to2.r = nExog := rfl
  rw [e1, e2, e3, c1, o1] at hz
  refine (hz (by omega)).congr fun i hi j hj => ?_
  unfold zuEnt
  split
  · rfl
  · split
    · exact c3 _ (by omega) j hj
    · split
      · exact o3 _ (by omega) j hj
      · show (if j = i - (t.nT + t.n + t.nF) + 0 then 1 else 0 : V) = _
        simp only [Nat.add_zero, eq_comm]

end

end Pynare
