import Verif.Lemmas.SolvableSecond
import Verif.Lemmas.SecondMain
import Verif.Spec.Solvable
/-!
# A model with exactly one bounded path has a second-order solution
-/

namespace Pynare

set_option linter.unusedSectionVars false

open Nd (kronEnt)

variable {V : Type} [Field V] [DecidableEq V]

theorem drCols_lt {t : Llx} (hlt : ∀ r c v, t.cell r c = some v → v < t.count) (r : Nat) :
    ∀ c ∈ t.toTyper.drCols r, c < t.count := by
  intro c hc
  obtain ⟨x, hx⟩ : ∃ x, (Arr.zeros 0 t.count : Arr ℚ).cols (t.toTyper.drCols r) = .ok x :=
    timed_some (a := (Arr.zeros 0 t.count : Arr ℚ)) hlt _ _ r
  unfold Arr.cols at hx
  split at hx
  · rename_i hall
    exact of_decide_eq_true (List.all_eq_true.mp hall c hc)
  · cases hx

theorem drAll_lt {t : Llx} (g : Groups t.toTyper) (hcount : t.count = t.nT + t.n + t.nF)
    (hlt : ∀ r c v, t.cell r c = some v → v < t.count) (ne : Nat) :
    ∀ c ∈ t.toTyper.drAll ne, c < t.count + ne := by
  have hlen := drAll_length g 0
  intro c hc
  have e : (t.toTyper.drAll 0).length = (t.toTyper.drCols 0 ++ t.toTyper.drCols 1 ++ t.toTyper.drCols 2).length := by
    unfold Typer.drAll; simp
  simp only [Typer.drAll] at hc
  rw [← e, hlen] at hc
  simp only [List.mem_append, List.mem_map, List.mem_range] at hc
  rcases hc with ((hc | hc) | hc) | ⟨k, hk, rfl⟩
  · exact (drCols_lt hlt 0 c hc).trans_le (Nat.le_add_right _ _)
  · exact (drCols_lt hlt 1 c hc).trans_le (Nat.le_add_right _ _)
  · exact (drCols_lt hlt 2 c hc).trans_le (Nat.le_add_right _ _)
  · rw [hcount]
    unfold Typer.nT Typer.nF
    omega

theorem lead_columns {t : Typer} (g : Groups t) {J C : Arr V} {i : Nat}
    (hC : ∀ j < t.n, C.e i j = if t.f0 ≤ j then J.e i (t.col 2 j) else 0) (x : Nat → V) :
    (sumTo t.n fun k => C.e i k * x k) =
      sumTo t.nF fun f => J.e i (t.col 2 (t.f0 + f)) * x (t.f0 + f) := by
  have e : t.n = t.f0 + t.nF := by
    have := g.total
    unfold Typer.f0 Typer.nF
    omega
  conv_lhs => rw [e]
  rw [sumTo_plus, sumTo_eq t.f0, Finset.sum_eq_zero, zero_add]
  · exact sumTo_congr fun f hf => by rw [hC _ (by omega), if_pos (by omega)]
  · intro k hk
    have := Finset.mem_range.mp hk
    rw [hC k (by omega), if_neg (by omega), zero_mul]

set_option maxHeartbeats 2000000 in
theorem second_some {φ : V →+* ℂ} {la : LinAlg V} (ex : la.Exact) (iv : la.Inverts)
    {qz : Arr V → Arr V → Except Err (GQZ V)} (hqz : GQZExact qz) {half : V} {t : Llx} {ne : Nat}
    {J H sigma gy gu : Arr V} {s : Space V} {q : QZ V} {ev : Nat → Option ℂ}
    (h : Det φ la t ne J gy gu s q ev) (hcount : t.count = t.nT + t.n + t.nF)
    (hlt : ∀ r c v, t.cell r c = some v → v < t.count) (hJc : J.c = t.count + ne)
    (ht0 : t.nT ≠ 0) (hn : t.n ≠ 1) (hf0 : t.nF ≠ 0) (hf : t.nF ≠ 1 ∨ t.nT ≠ 1) (hne : t.nT = 1 ∨ ne ≠ 1)
    (hsh : t.nT = 1 → ne ≠ 1 → t.nF ≠ ne)
    (hgy : gy.r = t.n ∧ gy.c = t.nBackward) (hgu : gu.r = t.n ∧ gu.c = ne) (hH : H.r = t.n)
    (hHc : H.c = (t.count + ne) * (t.count + ne))
    (hsig : sigma.r = ne ∧ sigma.c = ne) (ans : AnswersSecond qz t.toTyper J gy) :
    ∃ s2, solveSecondOrder la qz half t.toTyper ne J H sigma (Nd.mat gy).squeeze (Nd.mat gu).squeeze = .ok s2 := by
  have g := groups h.cur
  have hs := h.static
  have hJ := h.square
  have hnb : t.nBackward = t.nT := (C31_sizes t.toTyper).2.2.2.1
  have hn0 : t.n ≠ 0 := by
    have := (nSum g).1
    omega
  have hz2 : 2 ≤ t.count + ne := by
    rw [hcount]
    omega
  have hlen : (t.toTyper.drAll ne).length = t.count + ne := by
    rw [drAll_length g, hcount]; rfl
  have hltJ : ∀ r c v, t.toTyper.cell r c = some v → v < J.c := by
    intro r c v hv
    rw [hJc]
    exact (hlt r c v hv).trans_le (Nat.le_add_right _ _)
  have hGy : (Nd.mat gy).squeeze.Is t.n t.nT gy.e := squeeze_is' hgy.1 (hgy.2.trans hnb) hn
  have hGu : (Nd.mat gu).squeeze.Is t.n ne gu.e := squeeze_is' hgu.1 hgu.2 hn
  obtain ⟨order, ho⟩ : ∃ order, squareCols (t.count + ne) (t.toTyper.drAll ne) = .ok order :=
    squareCols_some (drAll_lt g hcount hlt ne)
  obtain ⟨hess, hh⟩ := Arr.cols_some (a := H) (cs := order) (by
    intro c hc
    rw [hHc]
    exact squareCols_lt ho c hc)
  obtain ⟨hh1, hh2, -⟩ := cols_e hh
  obtain ⟨o1, -, -⟩ := squareCols_ok ho
  rw [o1, hlen] at hh2
  have hhc : hess.c ≠ 1 := by
    rw [hh2]
    exact fun h1 => absurd (Nat.eq_one_of_mul_eq_one_left h1) (by omega)
  obtain ⟨⟨A, C, D⟩, hsys⟩ := setupSystem_some g hs hn hf hf0 ht0 hJ hltJ hGy
  obtain ⟨-, -, -, ⟨A1, A2, A3⟩, ⟨C1, C2, C3⟩, D1, D2, D3⟩ := setupSystem_ok g hs hn hGy hsys
  have hAe : ∀ i < t.n, ∀ v : Nat → V, (sumTo t.n fun j => A.e i j * v j) =
      sumTo t.n fun j => sysEnt t.toTyper J gy.e i j * v j :=
    fun i hi v => sumTo_congr fun j hj => by rw [A3 i hi j hj]; rfl
  obtain ⟨inv, hinv⟩ := arr_inv_of_inj (a := A) A1 A2 (by
    intro v hv
    refine h.sys_inj ex v fun i hi => ?_
    rw [← hAe i hi]
    exact hv i hi)
  obtain ⟨zx, hzx⟩ := hessCoefsDx_some g hs hf ht0 (nExog := ne) hGy
  obtain ⟨zu, hzu⟩ := hessCoefsDu_some g hs hf ht0 hsh hGy hGu
  have hZx := hessCoefsDx_ok g hs hn hn0 hf ht0 hGy hzx
  have hZu := hessCoefsDu_ok g hs hn hn0 hf ht0 hGy hGu hzu
  rw [← hcount] at hZx hZu
  have hans : t.nT ≠ 1 → (∃ d, qz A C = .ok d) ∧ ∃ d, qz D.to2 (Arr.eye (t.nT * t.nT) (t.nT * t.nT) 0) = .ok d := by
    intro h1
    have := ans (by rw [hnb]; exact h1) A C D hsys
    rwa [hnb] at this
  obtain ⟨ghxx, hxx⟩ := solveGhxx_some iv ex hqz (nt := t.nT) ht0 ⟨A1, A2⟩ ⟨C1, C2⟩ ⟨D1, D2⟩
    (hh1.trans hH) hh2 hhc hZx (fun h1 => (hans h1).1) (fun h1 => (hans h1).2) (by
      intro X hX
      have hX := ((sylvester_kron (n := t.n) (G := fun p => gy.e (t.nS + p))
        (show (Arr.zeros t.n (t.nT * t.nT) : Arr V).r = t.n from rfl) rfl D3).mp hX).2.2
      refine h.syl_inj ex X fun i hi j hj => ?_
      have := hX i hi j hj
      rw [hAe i hi, lead_columns g (C3 i hi)] at this
      exact this)
  obtain ⟨X, X1, X2, X3, X4, X5⟩ := solveGhxx_ok ex hqz (G := fun p => gy.e (t.nS + p))
    (hh1.trans hH) hhc hZx D3 hxx
  obtain ⟨ghxu, hxu⟩ := solveGhxu_some iv hn hne (states_le g) (hh1.trans hH) hh2 ⟨A1, A2⟩ hinv ⟨C1, C2⟩
    hZx hZu hGy hGu X3
  obtain ⟨ghuu, huu⟩ := solveGhuu_some iv hn hne (states_le g) (hh1.trans hH) hh2 hhc ⟨A1, A2⟩ hinv ⟨C1, C2⟩
    hZu hGu X3
  obtain ⟨W, W1, -⟩ := solveGhuu_ok ex hn hne (hh1.trans hH) hhc ⟨C1, C2⟩ hZu hGu X3 huu
  obtain ⟨del2, hdel⟩ := solveDel2_some g hs iv (half := half) (nz := t.count + ne) hn hf hf0 hne hJ hH hHc hltJ
    hJc hGy hGu W1 hsig (h.del2_inj ex)
  refine ⟨⟨ghxx, ghxu, ghuu, del2⟩, ?_⟩
  rw [← tloc_eq g hs] at hxu huu
  rw [← hnb] at hxx
  simp only [solveSecondOrder, hlen, ho, hh, hsys, hzx, hzu, hxx, hxu, huu, hdel, exc_bind]

end Pynare
