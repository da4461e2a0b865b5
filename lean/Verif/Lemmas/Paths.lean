import Verif.Lemmas.Pencil
import Verif.Lemmas.Unique
import Verif.Lemmas.SecondTaylor
/-!
# Bounded paths of the linearised equations, and the pencil
-/

namespace Pynare

open Matrix

variable {V : Type} [Field V]

set_option linter.unusedSectionVars false

/-! ### rank -/

theorem rank_inj {m n : Nat} (M : Matrix (Fin m) (Fin n) V) :
    M.rank = n ↔ ∀ v, M *ᵥ v = 0 → v = 0 := by
  have h := LinearMap.finrank_range_add_finrank_ker M.mulVecLin
  rw [Module.finrank_fin_fun] at h
  have h1 : M.rank = Module.finrank V (LinearMap.range M.mulVecLin) := rfl
  have h2 : Module.finrank V (LinearMap.ker M.mulVecLin) = 0 ↔ LinearMap.ker M.mulVecLin = ⊥ :=
    Submodule.finrank_eq_zero
  have h3 : (∀ v, M *ᵥ v = 0 → v = 0) ↔ LinearMap.ker M.mulVecLin = ⊥ := by
    rw [LinearMap.ker_eq_bot']
    rfl
  rw [h3, ← h2, h1]
  omega

/-! ### bounded sequences -/

/-- a bounded sequence -/
def SeqBounded (φ : V →+* ℂ) (f : Nat → V) : Prop := ∃ B : ℝ, ∀ τ, ‖φ (f τ)‖ ≤ B

theorem SeqBounded.add {φ : V →+* ℂ} {f g : Nat → V} (hf : SeqBounded φ f) (hg : SeqBounded φ g) :
    SeqBounded φ fun τ => f τ + g τ := by
  obtain ⟨B, hB⟩ := hf
  obtain ⟨C, hC⟩ := hg
  refine ⟨B + C, fun τ => ?_⟩
  rw [map_add]
  exact (norm_add_le _ _).trans (add_le_add (hB τ) (hC τ))

theorem SeqBounded.cmul {φ : V →+* ℂ} {f : Nat → V} (hf : SeqBounded φ f) (c : V) :
    SeqBounded φ fun τ => c * f τ := by
  obtain ⟨B, hB⟩ := hf
  refine ⟨‖φ c‖ * B, fun τ => ?_⟩
  rw [map_mul, norm_mul]
  exact mul_le_mul_of_nonneg_left (hB τ) (norm_nonneg _)

theorem SeqBounded.zero {φ : V →+* ℂ} : SeqBounded φ fun _ => (0 : V) := ⟨0, fun _ => by simp⟩

theorem SeqBounded.sum {φ : V →+* ℂ} {n : Nat} {f : Nat → Nat → V} (hf : ∀ j < n, SeqBounded φ fun τ => f τ j) :
    SeqBounded φ fun τ => sumTo n (f τ) := by
  induction n with
  | zero => exact SeqBounded.zero
  | succ n ih =>
    have : ∀ τ, sumTo (n + 1) (f τ) = sumTo n (f τ) + f τ n := by
      intro τ
      rw [sumTo_eq, sumTo_eq, Finset.sum_range_succ]
    simp only [this]
    exact (ih fun j hj => hf j (by omega)).add (hf n (by omega))

theorem SeqBounded.shift {φ : V →+* ℂ} {f : Nat → V} : SeqBounded φ (fun τ => f (τ + 1)) ↔ SeqBounded φ f := by
  constructor
  · rintro ⟨B, hB⟩
    refine ⟨max B ‖φ (f 0)‖, fun τ => ?_⟩
    rcases τ with _ | τ
    · exact le_max_right _ _
    · exact (hB τ).trans (le_max_left _ _)
  · rintro ⟨B, hB⟩
    exact ⟨B, fun τ => hB _⟩

theorem pathBounded_iff {φ : V →+* ℂ} {n : Nat} {x : Nat → Nat → V} :
    PathBounded φ n x ↔ ∀ j < n, SeqBounded φ fun τ => x τ j := by
  constructor
  · rintro ⟨B, hB⟩ j hj
    exact ⟨B, fun τ => hB τ j hj⟩
  · intro h
    choose! B hB using h
    refine ⟨∑ j ∈ Finset.range n, |B j|, fun τ j hj => (hB j hj τ).trans ?_⟩
    exact (le_abs_self _).trans (Finset.single_le_sum (f := fun j => |B j|) (fun _ _ => abs_nonneg _)
      (Finset.mem_range.mpr hj))

/-! ### rows of the equations, in decision-rule order -/

section
variable {t : Typer} (g : Groups t)
include g

theorem row_lag (A : Arr V) (i : Nat) (y : Nat → V) :
    rowPart t A i 0 y = sumTo (t.pureBackward.length + t.mixed.length) fun b =>
      A.e i (t.col 0 (t.static.length + b)) * y (t.dr (t.static.length + b)) := by
  classical exact rowPart_lag' g A i y

theorem row_lead (A : Arr V) (i : Nat) (y : Nat → V) :
    rowPart t A i 2 y = sumTo (t.mixed.length + t.pureForward.length) fun f =>
      A.e i (t.col 2 (t.static.length + t.pureBackward.length + f)) *
        y (t.dr (t.static.length + t.pureBackward.length + f)) := by
  classical exact rowPart_lead' g A i y

theorem row_cur (A : Arr V) (i : Nat) (y : Nat → V) :
    rowPart t A i 1 y = sumTo t.n fun j => A.e i (t.col 1 j) * y (t.dr j) := by
  classical exact rowPart_cur' g A i y

end

theorem sumTo_plus {a b : Nat} (f : Nat → V) : sumTo (a + b) f = sumTo a f + sumTo b fun p => f (a + p) := by
  rw [sumTo_eq, sumTo_eq, sumTo_eq, Finset.sum_range_add]

/-- the rows of the pencil that are equations -/
theorem pencil_row_back {t : Typer} (g : Groups t) {A D E : Arr V} (hpen : Pencil t A D E)
    (hzero : ∀ i, t.static.length ≤ i → i < t.n → ∀ j < t.static.length, A.e i (t.col 1 j) = 0)
    {ym y yp : Nat → V}
    (h : ∀ i < D.r, (sumTo (t.pureBackward.length + t.mixed.length) fun j =>
        D.e i j * y (t.dr (t.static.length + j))) +
      (sumTo (t.mixed.length + t.pureForward.length) fun j =>
        D.e i (t.pureBackward.length + t.mixed.length + j) *
          yp (t.dr (t.static.length + t.pureBackward.length + j))) =
      (sumTo (t.pureBackward.length + t.mixed.length) fun j =>
        E.e i j * ym (t.dr (t.static.length + j))) +
      sumTo (t.mixed.length + t.pureForward.length) fun j =>
        E.e i (t.pureBackward.length + t.mixed.length + j) *
          y (t.dr (t.static.length + t.pureBackward.length + j))) :
    ∀ i, t.static.length ≤ i → i < t.n → rowPart t A i 2 yp + rowPart t A i 1 y + rowPart t A i 0 ym = 0 := by
  have gt := g.total
  intro i0 h1 h2
  obtain ⟨i, rfl⟩ : ∃ i, i0 = i + t.static.length := ⟨i0 - t.static.length, by omega⟩
  have hlt : i < t.pureBackward.length + t.mixed.length + t.pureForward.length := by omega
  have hrow := h i (by rw [hpen.Dr]; omega)
  rw [sumTo_enum (stEnum t), sumTo_enum (fwEnum t), sumTo_enum (stEnum t), sumTo_enum (fwEnum t)] at hrow
  rw [rowPart_lead g, rowPart_cur g, rowPart_lag g]
  have hS0 : cAS t A (fun _ : Unit => i + t.static.length) = 0 := by
    ext a b
    exact hzero (i + t.static.length) (by omega) (by omega) b b.2
  rw [hS0, zero_mulVec]
  simp only [mulVec, dotProduct, Fintype.sum_sum_type, cAP, cAB, cAF, cAM, Arr.blk_apply, pick, stIdx,
    fwIdx, sumIdx, Sum.elim_inl, Sum.elim_inr, Pi.zero_apply, zero_add]
  have dm : ∀ m : Fin t.mixed.length, D.e i (t.pureBackward.length + m) = 0 :=
    fun m => hpen.D12 i hlt m m.2
  have db : ∀ b : Fin t.pureBackward.length, D.e i b = _ := fun b => hpen.D11 i hlt b b.2
  have df : ∀ f, D.e i (t.pureBackward.length + t.mixed.length + fwIdx t f) = _ :=
    fun f => hpen.D13 i hlt _ ((fwEnum t).lt f)
  have eb : ∀ b, E.e i (stIdx t b) = _ := fun b => hpen.E11 i hlt _ ((stEnum t).lt b)
  have ef : ∀ f, E.e i (t.pureBackward.length + t.mixed.length + fwIdx t f) = _ :=
    fun f => hpen.E12 i hlt _ ((fwEnum t).lt f)
  simp only [df, eb, ef] at hrow
  simp only [Fintype.sum_sum_type, stIdx, fwIdx, sumIdx, Sum.elim_inl, Sum.elim_inr, dm, db, zero_mul,
    Finset.sum_const_zero, add_zero, neg_mul, Finset.sum_neg_distrib, Nat.add_assoc] at hrow ⊢
  linear_combination hrow

/-- the rows of the pencil that identify the mixed variables -/
theorem pencil_mixed {t : Typer} {A D E : Arr V} (hpen : Pencil t A D E) {x x' : Nat → V}
    (h : ∀ i < D.r, (sumTo D.r fun j => D.e i j * x' j) = sumTo D.r fun j => E.e i j * x j) :
    ∀ m < t.mixed.length, x' (t.pureBackward.length + m) = x (t.pureBackward.length + t.mixed.length + m) := by
  intro m hm
  have hr := h (t.pureBackward.length + t.mixed.length + t.pureForward.length + m) (by rw [hpen.Dr]; omega)
  have hN : D.r = (t.pureBackward.length + t.mixed.length) + (t.mixed.length + t.pureForward.length) := by
    rw [hpen.Dr]; omega
  rw [hN, sumTo_plus (a := t.pureBackward.length + t.mixed.length) (b := t.mixed.length + t.pureForward.length),
    sumTo_plus (a := t.pureBackward.length + t.mixed.length) (b := t.mixed.length + t.pureForward.length)] at hr
  have e1 : (sumTo (t.pureBackward.length + t.mixed.length) fun j =>
      D.e (t.pureBackward.length + t.mixed.length + t.pureForward.length + m) j * x' j) =
      x' (t.pureBackward.length + m) := by
    rw [sumTo_eq, Finset.sum_eq_single (t.pureBackward.length + m)]
    · rw [hpen.D21 m hm _ (by omega), if_pos (Nat.add_comm _ _), one_mul]
    · intro j hj hne
      rw [hpen.D21 m hm _ (Finset.mem_range.mp hj), if_neg (by omega), zero_mul]
    · intro hn; exact absurd (Finset.mem_range.mpr (by omega)) hn
  have e2 : (sumTo (t.mixed.length + t.pureForward.length) fun j =>
      D.e (t.pureBackward.length + t.mixed.length + t.pureForward.length + m)
        (t.pureBackward.length + t.mixed.length + j) * x' (t.pureBackward.length + t.mixed.length + j)) = 0 := by
    rw [sumTo_eq]
    exact Finset.sum_eq_zero fun j hj => by rw [hpen.D22 m hm _ (Finset.mem_range.mp hj), zero_mul]
  have e3 : (sumTo (t.pureBackward.length + t.mixed.length) fun j =>
      E.e (t.pureBackward.length + t.mixed.length + t.pureForward.length + m) j * x j) = 0 := by
    rw [sumTo_eq]
    exact Finset.sum_eq_zero fun j hj => by rw [hpen.E21 m hm _ (Finset.mem_range.mp hj), zero_mul]
  have e4 : (sumTo (t.mixed.length + t.pureForward.length) fun j =>
      E.e (t.pureBackward.length + t.mixed.length + t.pureForward.length + m)
        (t.pureBackward.length + t.mixed.length + j) * x (t.pureBackward.length + t.mixed.length + j)) =
      x (t.pureBackward.length + t.mixed.length + m) := by
    rw [sumTo_eq, Finset.sum_eq_single m]
    · rw [hpen.E22 m hm _ (by omega), if_pos rfl, one_mul]
    · intro j hj hne
      rw [hpen.E22 m hm _ (Finset.mem_range.mp hj), if_neg hne, zero_mul]
    · intro hn; exact absurd (Finset.mem_range.mpr (by omega)) hn
  rw [e1, e2, e3, e4, add_zero, zero_add] at hr
  exact hr

/-! ### the static block -/

theorem static_block {la : LinAlg V} (ex : la.Exact) (hrk : la.RankExact) {t : Typer} (g : Groups t)
    (hs : t.nStatic = t.static.length)
    (hd : t.drOrder = t.static ++ t.pureBackward ++ t.mixed ++ t.pureForward) {J A : Arr V}
    (hJ : J.r = t.n) (h : rotated la t J = .ok A) :
    IsUnit (Matrix.of fun (i j : Fin t.static.length) => A.e i (t.col 1 j)) := by
  have gt := g.total
  unfold rotated at h
  simp only at h
  rw [static_list t hd] at h
  split at h
  · rename_i hnil
    have h0 : t.static.length = 0 := by
      by_contra hne
      obtain ⟨v, hv⟩ := Option.isSome_iff_exists.mp (g.cur 0 (by omega))
      have : v ∈ (t.permute t.drOrder).timed (List.range' 0 t.static.length) 1 := by
        unfold Typer.timed
        rw [List.mem_filterMap]
        exact ⟨0, by rw [List.mem_range'_1]; omega, hv⟩
      rw [hnil] at this
      cases this
    rw [Matrix.isUnit_iff_isUnit_det]
    have : IsEmpty (Fin t.static.length) := by rw [h0]; exact inferInstanceAs (IsEmpty (Fin 0))
    rw [Matrix.det_isEmpty]
    exact isUnit_one
  · obtain ⟨js, hjs, h⟩ := Except.bind_eq_ok h
    obtain ⟨⟨Q, R⟩, hqr, h⟩ := Except.bind_eq_ok h
    split at h
    · cases h
    · rename_i hrank
      have hrank := not_not.mp hrank
      obtain ⟨c1, c2, c3⟩ := cols_group hjs (fun j hj => g.cur _ (by omega))
      obtain ⟨q1, q2, q3, q4⟩ := ex.qr _ _ _ hqr
      have hQr : Q.r = t.n := by rw [q1, c1, hJ]
      have hQc : Q.c = t.n := by have := q2.2.2.2.1; simp only [Arr.eye] at this; omega
      obtain ⟨a1, a2, a3, a4⟩ := Arr.dot_ok h
      have hen : IsEnum (fun i : Fin t.n => i.val) t.n := IsEnum.fin _
      have orth := q2.mul (κ := fun i : Fin t.n => i.val) (by rw [hQr]; exact hen)
      have hRr : R.r = t.n := by have := q3.1; omega
      have hRc : R.c = t.static.length := by have := q3.2.2.1; omega
      have entry : ∀ i < t.n, ∀ j < t.static.length, A.e i (t.col 1 j) = R.e i j := by
        intro i hin j hj
        have hA1 := a4 (α := Unit) (γ := Unit) (fun _ => i) (fun i : Fin t.n => i.val) (fun _ => t.col 1 j)
          (by show IsEnum _ Q.r; rw [hQr]; exact hen)
        have hR := q3.mul (ρ := fun i : Fin t.n => i.val) (κ := fun i : Fin t.n => i.val)
          (σ := fun _ : Unit => j) (fun a => by rw [hQr]; exact a.2) (by rw [hQc]; exact hen)
          (fun _ => by have := q3.2.2.1; omega)
        have hJs : js.blk (fun i : Fin t.n => i.val) (fun _ : Unit => j) =
            J.blk (fun i : Fin t.n => i.val) (fun _ : Unit => t.col 1 j) := by
          ext a b
          refine (c3 _ _ hj).trans ?_
          simp [Arr.blk_apply]
        rw [hJs] at hR
        have hrow : ∀ m : Matrix (Fin t.n) Unit V,
            (Q.tr.blk (fun _ : Unit => i) (fun i : Fin t.n => i.val) * m) () () =
            ((Q.tr.blk (fun i : Fin t.n => i.val) (fun i : Fin t.n => i.val)) * m) ⟨i, hin⟩ () :=
          fun m => rfl
        have := congrFun (congrFun hA1 ()) ()
        rw [hrow, ← hR, ← Matrix.mul_assoc, orth.2, Matrix.one_mul] at this
        exact this
      rw [← Matrix.mulVec_injective_iff_isUnit, ← Matrix.coe_mulVecLin, injective_iff_map_eq_zero]
      intro v hv
      have hinj := (rank_inj (Matrix.of fun (i : Fin R.r) (j : Fin R.c) => R.e i j)).mp (by
        rw [← hrk, hrank, hs, hRc]) (fun j => v (Fin.cast hRc j)) (by
          funext i
          have hi : i.val < t.n := by rw [← hRr]; exact i.2
          have hsum : (Matrix.of (fun (i : Fin R.r) (j : Fin R.c) => R.e i j) *ᵥ fun j => v (Fin.cast hRc j)) i =
              ∑ j : Fin t.static.length, R.e i j * v j := by
            simp only [mulVec, dotProduct, Matrix.of_apply]
            exact Fintype.sum_equiv (finCongr hRc) _ _ fun j => rfl
          rw [hsum]
          by_cases hin : i.val < t.static.length
          · refine Eq.trans ?_ (congrFun hv ⟨i, hin⟩)
            simp only [Matrix.mulVecLin_apply, mulVec, dotProduct, Matrix.of_apply]
            exact Finset.sum_congr rfl fun j _ => by rw [entry i hi j j.2]
          · refine Finset.sum_eq_zero fun j _ => ?_
            rw [q4 i j (by omega) (by omega) (by omega), zero_mul])
      funext j
      exact congrFun hinj (Fin.cast hRc.symm j)

/-! ### models whose state space was built -/

/-- what is known about them -/
structure Ready (la : LinAlg V) (t : Llx) (J : Arr V) (s : Space V) (q : QZ V) : Prop where
  cur : ∀ c < t.n, t.has 1 c = true
  square : J.r = t.n
  sameD : s.lhs.r = s.rhs.r
  pen : Pencil t.toTyper s.jac s.lhs s.rhs
  jr : s.jac.r = t.n
  zero : ∀ i, t.static.length ≤ i → i < t.n → ∀ j < t.static.length, s.jac.e i (t.col 1 j) = 0
  back : ∃ Q : Nat → Nat → V, ∀ l < t.n, ∀ k, s.jac.e l k = sumTo t.n fun i => Q l i * J.e i k
  forth : ∃ Q : Nat → Nat → V, ∀ l < t.n, ∀ k, J.e l k = sumTo t.n fun i => Q l i * s.jac.e i k
  block : IsUnit (Matrix.of fun (i j : Fin t.static.length) => s.jac.e i (t.col 1 j))
  dec : q.Decomposes s.rhs s.lhs
  eigs : s.parts.eigs = q.eigs
  cut : ∃ expl, findFirst (q.eigs.map fun x => x.gt1 || x.inf) = .ok expl ∧
    s.parts.Z22 = q.Zt.tr.slice (cutAt q.Zt.r expl) q.Zt.r (cutAt q.Zt.r expl) q.Zt.r

theorem Examined.ready {φ : V →+* ℂ} {la : LinAlg V} (ex : la.Exact) (hrk : la.RankExact)
    {pss : List (List Int)} {t : Llx} {J : Arr V} {s : Space V} {q : QZ V} {ev : Nat → Option ℂ}
    (h : Examined φ la pss t J s q ev) : Ready la t J s q ∧ t.n = pss.length := by
  have hps := h.periods
  obtain ⟨t', ht', hn, hcell, -⟩ := C28_numbering pss (fun ps h h0 => by
    have := (hps ps h).1; rw [h0] at this; cases this) (fun ps h => (hps ps h).2)
  rw [h.table] at ht'
  have := Except.ok.inj ht'
  subst this
  have hcur : ∀ c < t.n, t.has 1 c = true := by
    intro c hcn
    have hc' : c < pss.length := by omega
    exact Option.isSome_iff_exists.mpr ((hcell c pss[c] 0 (List.getElem?_eq_getElem hc') (by omega)).mpr
      (hps _ (List.getElem_mem hc')).1)
  have hc := h.space
  have hst0 := create_needs_states hcur hc
  have g := groups hcur
  have gt := g.total
  obtain ⟨hnf, hnb, hnm, hnb', hnf', _⟩ := C31_sizes t.toTyper
  have hs := (C32_static_count_with_lag_partial h.table (by
    intro h0
    rw [h0] at hnb
    simp only [List.length_nil] at hnb
    omega)).1
  have hJ : J.r = t.n := by have := h.square; omega
  have hdr : t.drOrder = t.static ++ t.pureBackward ++ t.mixed ++ t.pureForward :=
    (C31_dr_order_groups_partial t.toTyper (by
      intro c hc h; have := hcur c hc; rw [h.2.2] at this; cases this)).1
  unfold Space.create at hc
  obtain ⟨⟨D, E, A⟩, hst, hc⟩ := Except.bind_eq_ok hc
  obtain ⟨p, hp, hc⟩ := Except.bind_eq_ok hc
  have := Except.ok.inj hc
  subst this
  have hq := h.decomposed
  unfold partitionedQZ at hp
  obtain ⟨q', hq', hp⟩ := Except.bind_eq_ok hp
  unfold LinAlg.ordqzChecked at hq'
  split at hq'
  · rename_i hsh
    simp only at hq
    rw [hq] at hq'
    have := Except.ok.inj hq'
    subst this
    obtain ⟨expl, hexpl, hp⟩ := Except.bind_eq_ok hp
    have hp' := Except.ok.inj hp
    subst hp'
    have hdec := ex.ordqz _ _ _ hsh.1 hsh.2.1 hsh.2.2 hq
    have hpos : 0 < E.r := by
      have := (findFirst_spec hexpl).1
      rw [← hdec.count]
      exact List.length_pos_iff.mpr this
    have hrot : rotated la t.toTyper J = .ok A := by
      unfold structSpace at hst
      obtain ⟨A', hr, hst⟩ := Except.bind_eq_ok hst
      obtain ⟨_, _, hst⟩ := Except.bind_eq_ok hst
      obtain ⟨_, _, hst⟩ := Except.bind_eq_ok hst
      obtain ⟨_, _, hst⟩ := Except.bind_eq_ok hst
      obtain ⟨_, _, hst⟩ := Except.bind_eq_ok hst
      obtain ⟨⟨_, _⟩, _, hst⟩ := Except.bind_eq_ok hst
      have := Except.ok.inj hst
      simp only [Prod.mk.injEq] at this
      rw [← this.2.2]; exact hr
    obtain ⟨hA, hzero, hQ⟩ := rotated_spec ex g hdr hJ hrot
    obtain ⟨-, hpen⟩ := structSpace_spec g hs hst hA hsh.1 (by omega) hpos
    refine ⟨⟨hcur, hJ, hsh.2.2.symm, hpen, hA, hzero, ?_, hQ, static_block ex hrk g hs hdr hJ hrot, hdec, rfl,
      expl, hexpl, rfl⟩, hn⟩
    unfold rotated at hrot
    simp only at hrot
    split at hrot
    · have := Except.ok.inj hrot
      subst this
      refine ⟨fun l i => if i = l then 1 else 0, ?_⟩
      intro l hl k
      rw [sumTo_eq]
      simp [Finset.mem_range, hl]
    · obtain ⟨js, hjs, hrot⟩ := Except.bind_eq_ok hrot
      obtain ⟨⟨Q, R⟩, hqr, hrot⟩ := Except.bind_eq_ok hrot
      split at hrot
      · cases hrot
      · obtain ⟨e1, e2, e3, e4⟩ := dot_entry hrot
        refine ⟨fun l i => Q.tr.e l i, ?_⟩
        intro l hl k
        rw [e4, e1, hJ]
  · cases hq'

section
variable {la : LinAlg V} {t : Llx} {J : Arr V} {s : Space V} {q : QZ V} (hR : Ready la t J s q)
include hR

theorem Ready.size : s.rhs.r =
    (t.pureBackward.length + t.mixed.length) + (t.mixed.length + t.pureForward.length) := by
  rw [← hR.sameD, hR.pen.Dr]; omega

/-- the equations, rotated or not -/
theorem Ready.rows (nExog : Nat) (ym y yp : Nat → V) :
    (∀ i < t.n, linearised t nExog J i ym y yp (fun _ => 0) = 0) ↔
    ∀ i < t.n, rowPart t.toTyper s.jac i 2 yp + rowPart t.toTyper s.jac i 1 y + rowPart t.toTyper s.jac i 0 ym = 0 := by
  have hl : ∀ i, linearised t nExog s.jac i ym y yp (fun _ => 0) =
      rowPart t.toTyper s.jac i 2 yp + rowPart t.toTyper s.jac i 1 y + rowPart t.toTyper s.jac i 0 ym := by
    intro i
    unfold linearised
    rw [sumTo_eq, Finset.sum_eq_zero fun _ _ => mul_zero _, add_zero]
  simp only [← hl]
  obtain ⟨Q, hQ⟩ := hR.back
  obtain ⟨Q', hQ'⟩ := hR.forth
  exact ⟨fun h l hl => linearised_combine (hQ l hl) h, fun h l hl => linearised_combine (hQ' l hl) h⟩

/-- the vectors of the pencil along a path -/
def pencilOf (t : Llx) (y : Nat → Nat → V) (τ j : Nat) : V :=
  if j < t.pureBackward.length + t.mixed.length then y τ (t.dr (t.static.length + j))
  else y (τ + 1) (t.dr (t.static.length + t.pureBackward.length + (j - (t.pureBackward.length + t.mixed.length))))

theorem Ready.pencil_sum (M : Arr V) (i : Nat) (y : Nat → Nat → V) (τ : Nat) :
    (sumTo s.rhs.r fun j => M.e i j * pencilOf t y τ j) =
    (sumTo (t.pureBackward.length + t.mixed.length) fun j => M.e i j * y τ (t.dr (t.static.length + j))) +
    sumTo (t.mixed.length + t.pureForward.length) fun j => M.e i (t.pureBackward.length + t.mixed.length + j) *
      y (τ + 1) (t.dr (t.static.length + t.pureBackward.length + j)) := by
  rw [hR.size, sumTo_plus (a := t.pureBackward.length + t.mixed.length)
    (b := t.mixed.length + t.pureForward.length)]
  congr 1
  · rw [sumTo_eq, sumTo_eq]
    exact Finset.sum_congr rfl fun j hj => by
      rw [pencilOf, if_pos (Finset.mem_range.mp hj)]
  · rw [sumTo_eq, sumTo_eq]
    exact Finset.sum_congr rfl fun j hj => by
      rw [pencilOf, if_neg (by omega), Nat.add_sub_cancel_left]

/-- a path solves the pencil -/
theorem Ready.project {nExog : Nat} {y : Nat → Nat → V}
    (h : ∀ τ, ∀ i < t.n, linearised t nExog J i (y τ) (y (τ + 1)) (y (τ + 2)) (fun _ => 0) = 0) :
    PencilPath s.lhs s.rhs s.rhs.r (pencilOf t y) := by
  intro τ i hi
  rw [hR.pencil_sum, hR.pencil_sum]
  exact pencil_rows (groups hR.cur) hR.pen hR.zero
    (fun i _ hi => (hR.rows nExog _ _ _).mp (h τ) i hi) i (by rw [hR.sameD]; exact hi)

theorem Ready.project_bounded {φ : V →+* ℂ} {y : Nat → Nat → V} (hb : PathBounded φ t.n y) :
    PathBounded φ s.rhs.r (pencilOf t y) := by
  have g := groups hR.cur
  have gt := g.total
  obtain ⟨B, hB⟩ := hb
  have hd : ∀ i < t.n, t.dr i < t.n := fun i hi => (drEnum g (IsEnum.fin t.n)).lt ⟨i, hi⟩
  refine ⟨B, fun τ j hj => ?_⟩
  rw [hR.size] at hj
  unfold pencilOf
  split
  · exact hB _ _ (hd _ (by omega))
  · exact hB _ _ (hd _ (by omega))

/-- every solution of the pencil belongs to a path -/
theorem Ready.lift {φ : V →+* ℂ} (nExog : Nat) {x : Nat → Nat → V} (hx : PencilPath s.lhs s.rhs s.rhs.r x)
    (hb : PathBounded φ s.rhs.r x) {y0 : Nat → V}
    (h0 : ∀ j < t.pureBackward.length + t.mixed.length, x 0 j = y0 (t.dr (t.static.length + j))) :
    ∃ y : Nat → Nat → V, y 0 = y0 ∧
      (∀ τ, ∀ i < t.n, linearised t nExog J i (y τ) (y (τ + 1)) (y (τ + 2)) (fun _ => 0) = 0) ∧
      PathBounded φ t.n y ∧ ∀ τ, ∀ j < s.rhs.r, pencilOf t y τ j = x τ j := by
  have g := groups hR.cur
  have gt := g.total
  have hN := hR.size
  have den := drEnum g (IsEnum.fin t.n)
  have hdr : ∀ i < t.n, t.dr i < t.n := fun i hi => den.lt ⟨i, hi⟩
  -- the inverse of the order
  obtain ⟨pos, hpos⟩ : ∃ pos : Nat → Nat, ∀ i < t.n, pos (t.dr i) = i := by
    refine ⟨fun c => if h : ∃ i : Fin t.n, t.dr i = c then (Classical.choose h).val else 0, ?_⟩
    intro i hi
    have h : ∃ k : Fin t.n, t.dr k = t.dr i := ⟨⟨i, hi⟩, rfl⟩
    simp only [dif_pos h]
    have := den.inj (a₁ := Classical.choose h) (a₂ := ⟨i, hi⟩) (Classical.choose_spec h)
    rw [this]
  set ns := t.static.length with hns
  set pb := t.pureBackward.length with hpb
  set nm := t.mixed.length with hnm
  set pf := t.pureForward.length with hpf
  let W : Nat → Nat → V := fun τ i =>
    if i < ns then 0 else if i < ns + (pb + nm) then x (τ + 1) (i - ns) else x τ (pb + nm + (i - ns - pb))
  let z : Nat → Nat → V := fun τ c => match τ with
    | 0 => y0 c
    | τ + 1 => W τ (pos c)
  have hmix : ∀ τ, ∀ m < nm, x (τ + 1) (pb + m) = x τ (pb + nm + m) := by
    intro τ
    refine pencil_mixed hR.pen ?_
    rw [hR.sameD]
    exact hx τ
  have hWst : ∀ τ, ∀ j < pb + nm, W τ (ns + j) = x (τ + 1) j := by
    intro τ j hj
    simp only [W]
    rw [if_neg (by omega), if_pos (by omega), Nat.add_sub_cancel_left]
  have hWfw : ∀ τ, ∀ j < nm + pf, W τ (ns + pb + j) = x τ (pb + nm + j) := by
    intro τ j hj
    simp only [W]
    rw [if_neg (by omega)]
    split
    · rw [show ns + pb + j - ns = pb + j by omega]
      exact hmix τ j (by omega)
    · rw [show ns + pb + j - ns - pb = j by omega]
  have hzst : ∀ τ, ∀ j < pb + nm, z τ (t.dr (ns + j)) = x τ j := by
    intro τ j hj
    rcases τ with _ | τ
    · exact (h0 j hj).symm
    · show W τ (pos (t.dr (ns + j))) = _
      rw [hpos _ (by omega), hWst τ j hj]
  have hzfw : ∀ τ, ∀ j < nm + pf, z (τ + 1) (t.dr (ns + pb + j)) = x τ (pb + nm + j) := by
    intro τ j hj
    show W τ (pos (t.dr (ns + pb + j))) = _
    rw [hpos _ (by omega), hWfw τ j hj]
  have hzp : ∀ τ, ∀ j < s.rhs.r, pencilOf t z τ j = x τ j := by
    intro τ j hj
    unfold pencilOf
    split
    · exact hzst τ j (by assumption)
    · rw [hzfw τ _ (by omega)]
      congr 1
      omega
  have hzrow : ∀ τ, ∀ i, ns ≤ i → i < t.n → rowPart t.toTyper s.jac i 2 (z (τ + 2)) +
      rowPart t.toTyper s.jac i 1 (z (τ + 1)) + rowPart t.toTyper s.jac i 0 (z τ) = 0 := by
    intro τ
    refine pencil_row_back g hR.pen hR.zero fun i hi => ?_
    rw [hR.sameD] at hi
    rw [← hR.pencil_sum s.lhs i z (τ + 1), ← hR.pencil_sum s.rhs i z τ]
    have e : ∀ (M : Arr V) τ, (sumTo s.rhs.r fun j => M.e i j * pencilOf t z τ j) =
        sumTo s.rhs.r fun j => M.e i j * x τ j := by
      intro M τ
      rw [sumTo_eq, sumTo_eq]
      exact Finset.sum_congr rfl fun j hj => by rw [hzp τ j (Finset.mem_range.mp hj)]
    rw [e, e]
    exact hx τ i hi
  -- the static variables
  let rest : Nat → Nat → V := fun τ l => rowPart t.toTyper s.jac l 2 (z (τ + 2)) +
      rowPart t.toTyper s.jac l 1 (z (τ + 1)) + rowPart t.toTyper s.jac l 0 (z τ)
  set M := (Matrix.of fun (i j : Fin ns) => s.jac.e i (t.col 1 j)) with hM
  have hMd : IsUnit M.det := (Matrix.isUnit_iff_isUnit_det _).mp hR.block
  let Mi : Nat → Nat → V := fun i l => if h : i < ns ∧ l < ns then M⁻¹ ⟨i, h.1⟩ ⟨l, h.2⟩ else 0
  let st : Nat → Nat → V := fun τ i => sumTo ns fun l => - Mi i l * rest τ l
  let y : Nat → Nat → V := fun τ c => match τ with
    | 0 => y0 c
    | τ + 1 => if pos c < ns then st τ (pos c) else W τ (pos c)
  have hyz : ∀ τ, ∀ i, ns ≤ i → i < t.n → y (τ + 1) (t.dr i) = z (τ + 1) (t.dr i) := by
    intro τ i h1 h2
    show (if pos (t.dr i) < ns then _ else _) = _
    rw [hpos i h2, if_neg (by omega)]
    show _ = W τ (pos (t.dr i))
    rw [hpos i h2]
  have hy2 : ∀ τ i, rowPart t.toTyper s.jac i 2 (y (τ + 1)) = rowPart t.toTyper s.jac i 2 (z (τ + 1)) := by
    intro τ i
    rw [row_lead g, row_lead g, sumTo_eq, sumTo_eq]
    exact Finset.sum_congr rfl fun f hf => by
      have := Finset.mem_range.mp hf
      rw [hyz τ _ (by omega) (by omega)]
  have hy0 : ∀ τ i, rowPart t.toTyper s.jac i 0 (y τ) = rowPart t.toTyper s.jac i 0 (z τ) := by
    intro τ i
    rcases τ with _ | τ
    · rfl
    rw [row_lag g, row_lag g, sumTo_eq, sumTo_eq]
    exact Finset.sum_congr rfl fun f hf => by
      have := Finset.mem_range.mp hf
      rw [hyz τ _ (by omega) (by omega)]
  have hy1 : ∀ τ i, rowPart t.toTyper s.jac i 1 (y (τ + 1)) = rowPart t.toTyper s.jac i 1 (z (τ + 1)) +
      sumTo ns fun j => s.jac.e i (t.col 1 j) * st τ j := by
    intro τ i
    rw [row_cur g, row_cur g, show t.n = ns + (pb + nm + pf) by omega, sumTo_plus (a := ns), sumTo_plus (a := ns)]
    have e1 : (sumTo ns fun j => s.jac.e i (t.col 1 j) * y (τ + 1) (t.dr j)) =
        sumTo ns fun j => s.jac.e i (t.col 1 j) * st τ j := by
      rw [sumTo_eq, sumTo_eq]
      refine Finset.sum_congr rfl fun j hj => ?_
      have hj := Finset.mem_range.mp hj
      congr 1
      show (if pos (t.dr j) < ns then _ else _) = _
      rw [hpos j (by omega), if_pos hj]
    have e2 : (sumTo ns fun j => s.jac.e i (t.col 1 j) * z (τ + 1) (t.dr j)) = 0 := by
      rw [sumTo_eq]
      refine Finset.sum_eq_zero fun j hj => ?_
      have hj := Finset.mem_range.mp hj
      have : z (τ + 1) (t.dr j) = 0 := by
        show W τ (pos (t.dr j)) = 0
        rw [hpos j (by omega)]
        simp only [W, if_pos hj]
      rw [this, mul_zero]
    have e3 : (sumTo (pb + nm + pf) fun p => s.jac.e i (t.col 1 (ns + p)) * y (τ + 1) (t.dr (ns + p))) =
        sumTo (pb + nm + pf) fun p => s.jac.e i (t.col 1 (ns + p)) * z (τ + 1) (t.dr (ns + p)) := by
      rw [sumTo_eq, sumTo_eq]
      exact Finset.sum_congr rfl fun j hj => by
        have := Finset.mem_range.mp hj
        rw [hyz τ _ (by omega) (by omega)]
    rw [e1, e2, e3]
    ring
  have hst : ∀ τ, ∀ i < ns, (sumTo ns fun j => s.jac.e i (t.col 1 j) * st τ j) = - rest τ i := by
    intro τ i hi
    have h1 : (fun j : Fin ns => st τ j) = M⁻¹ *ᵥ fun l : Fin ns => - rest τ l := by
      funext j
      simp only [st]
      rw [sumTo_enum (IsEnum.fin ns)]
      simp only [mulVec, dotProduct]
      refine Finset.sum_congr rfl fun l _ => ?_
      simp only [Mi, dif_pos (show j.val < ns ∧ l.val < ns from ⟨j.2, l.2⟩)]
      ring
    have h2 : (M *ᵥ fun j : Fin ns => st τ j) = fun l : Fin ns => - rest τ l := by
      rw [h1, mulVec_mulVec, Matrix.mul_nonsing_inv _ hMd, one_mulVec]
    rw [sumTo_enum (IsEnum.fin ns)]
    exact congrFun h2 ⟨i, hi⟩
  refine ⟨y, rfl, ?_, ?_, ?_⟩
  · intro τ
    refine (hR.rows nExog _ _ _).mpr fun i hi => ?_
    rw [hy2 (τ + 1), hy1, hy0]
    by_cases his : i < ns
    · rw [hst τ i his]
      simp only [rest]
      ring
    · have hz0 := hzrow τ i (by omega) hi
      have : (sumTo ns fun j => s.jac.e i (t.col 1 j) * st τ j) = 0 := by
        rw [sumTo_eq]
        exact Finset.sum_eq_zero fun j hj => by
          rw [hR.zero i (by omega) hi j (Finset.mem_range.mp hj), zero_mul]
      rw [this, add_zero]
      exact hz0
  · have hxb := pathBounded_iff.mp hb
    have hxb1 : ∀ j < s.rhs.r, SeqBounded φ fun τ => x (τ + 1) j := fun j hj => SeqBounded.shift.mpr (hxb j hj)
    have hWb : ∀ i < t.n, SeqBounded φ fun τ => W τ i := by
      intro i hi
      simp only [W]
      by_cases h1 : i < ns
      · simp only [if_pos h1]; exact SeqBounded.zero
      · simp only [if_neg h1]
        by_cases h2 : i < ns + (pb + nm)
        · simp only [if_pos h2]; exact hxb1 _ (by omega)
        · simp only [if_neg h2]; exact hxb _ (by omega)
    have hzb : ∀ c < t.n, SeqBounded φ fun τ => z τ c := by
      intro c hc
      refine SeqBounded.shift.mp ?_
      obtain ⟨⟨i, hi⟩, rfl⟩ := den.surj c hc
      show SeqBounded φ fun τ => W τ (pos (t.dr i))
      rw [hpos i hi]
      exact hWb i hi
    have hrest : ∀ l, SeqBounded φ fun τ => rest τ l := by
      intro l
      simp only [rest]
      refine (SeqBounded.add ?_ ?_).add ?_
      · simp only [row_lead g]
        refine SeqBounded.sum (f := fun τ f => _) fun j hj => SeqBounded.cmul ?_ _
        exact SeqBounded.shift.mpr (SeqBounded.shift.mpr (hzb _ (hdr _ (by omega))))
      · simp only [row_cur g]
        refine SeqBounded.sum (f := fun τ f => _) fun j hj => SeqBounded.cmul ?_ _
        exact SeqBounded.shift.mpr (hzb _ (hdr _ (by omega)))
      · simp only [row_lag g]
        refine SeqBounded.sum (f := fun τ f => _) fun j hj => SeqBounded.cmul ?_ _
        exact hzb _ (hdr _ (by omega))
    have hstb : ∀ i, SeqBounded φ fun τ => st τ i := fun i =>
      SeqBounded.sum (f := fun τ l => - Mi i l * rest τ l) fun l _ => (hrest l).cmul _
    refine pathBounded_iff.mpr fun c hc => SeqBounded.shift.mp ?_
    show SeqBounded φ fun τ => if pos c < ns then st τ (pos c) else W τ (pos c)
    obtain ⟨⟨i, hi⟩, rfl⟩ := den.surj c hc
    simp only [hpos i hi]
    split
    · exact hstb i
    · exact hWb i hi
  · intro τ j hj
    rw [← hzp τ j hj]
    unfold pencilOf
    split
    · rcases τ with _ | τ
      · rfl
      · exact hyz τ _ (by omega) (by omega)
    · exact hyz τ _ (by omega) (by omega)

/-- a path whose pencil is zero from zero values is zero -/
theorem Ready.lift_zero {nExog : Nat} {y : Nat → Nat → V}
    (h : ∀ τ, ∀ i < t.n, linearised t nExog J i (y τ) (y (τ + 1)) (y (τ + 2)) (fun _ => 0) = 0)
    (hz : ∀ τ, ∀ j < s.rhs.r, pencilOf t y τ j = 0) (τ : Nat) : ∀ c < t.n, y (τ + 1) c = 0 := by
  have g := groups hR.cur
  have gt := g.total
  have hN := hR.size
  have den := drEnum g (IsEnum.fin t.n)
  have hst : ∀ τ, ∀ j < t.pureBackward.length + t.mixed.length, y τ (t.dr (t.static.length + j)) = 0 := by
    intro τ j hj
    have := hz τ j (by omega)
    rwa [pencilOf, if_pos hj] at this
  have hfw : ∀ τ, ∀ j < t.mixed.length + t.pureForward.length,
      y (τ + 1) (t.dr (t.static.length + t.pureBackward.length + j)) = 0 := by
    intro τ j hj
    have := hz τ (t.pureBackward.length + t.mixed.length + j) (by omega)
    rwa [pencilOf, if_neg (by omega), Nat.add_sub_cancel_left] at this
  have hnon : ∀ i, t.static.length ≤ i → i < t.n → y (τ + 1) (t.dr i) = 0 := by
    intro i h1 h2
    by_cases hlt : i < t.static.length + (t.pureBackward.length + t.mixed.length)
    · have := hst (τ + 1) (i - t.static.length) (by omega)
      rwa [Nat.add_sub_cancel' h1] at this
    · have := hfw τ (i - (t.static.length + t.pureBackward.length)) (by omega)
      rwa [Nat.add_sub_cancel' (by omega)] at this
  have hM : (Matrix.of fun (i j : Fin t.static.length) => s.jac.e i (t.col 1 j)) *ᵥ
      (fun j => y (τ + 1) (t.dr j)) = 0 := by
    funext i
    have hi := i.2
    have := (hR.rows nExog _ _ _).mp (h τ) i (by omega)
    rw [row_lead g, row_cur g, row_lag g] at this
    have z1 : (sumTo (t.mixed.length + t.pureForward.length) fun f =>
      s.jac.e i (t.col 2 (t.static.length + t.pureBackward.length + f)) *
        y (τ + 2) (t.dr (t.static.length + t.pureBackward.length + f))) = 0 := by
      rw [sumTo_eq]
      exact Finset.sum_eq_zero fun f hf => by rw [hfw (τ + 1) f (Finset.mem_range.mp hf), mul_zero]
    have z2 : (sumTo (t.pureBackward.length + t.mixed.length) fun b =>
      s.jac.e i (t.col 0 (t.static.length + b)) * y τ (t.dr (t.static.length + b))) = 0 := by
      rw [sumTo_eq]
      exact Finset.sum_eq_zero fun f hf => by rw [hst τ f (Finset.mem_range.mp hf), mul_zero]
    rw [z1, z2, zero_add, add_zero, sumTo_split _ t.static.length (by omega),
      Finset.sum_eq_zero (s := Finset.Ico _ _) (fun j hj => by
        rw [hnon j (Finset.mem_Ico.mp hj).1 (Finset.mem_Ico.mp hj).2, mul_zero]), add_zero, Finset.sum_range] at this
    exact this
  have hinj := Matrix.mulVec_injective_iff_isUnit.mpr hR.block
  have hzero := hinj (hM.trans (mulVec_zero _).symm)
  intro c hc
  obtain ⟨⟨i, hi⟩, rfl⟩ := den.surj c hc
  show y (τ + 1) (t.dr i) = 0
  by_cases hin : i < t.static.length
  · exact congrFun hzero ⟨i, hin⟩
  · exact hnon i (by omega) hi

theorem Ready.initial (v : Nat → V) : ∃ y0 : Nat → V, ∀ j < t.pureBackward.length + t.mixed.length,
    y0 (t.dr (t.static.length + j)) = v j := by
  have g := groups hR.cur
  have gt := g.total
  have den := drEnum g (IsEnum.fin t.n)
  refine ⟨fun c => if h : ∃ i : Fin t.n, t.dr i = c then v ((Classical.choose h).val - t.static.length) else 0, ?_⟩
  intro j hj
  have h : ∃ k : Fin t.n, t.dr k = t.dr (t.static.length + j) := ⟨⟨t.static.length + j, by omega⟩, rfl⟩
  simp only [dif_pos h]
  have := den.inj (a₁ := Classical.choose h) (a₂ := ⟨t.static.length + j, by omega⟩) (Classical.choose_spec h)
  rw [this, Nat.add_sub_cancel_left]

/-- when there is exactly one bounded path from everywhere -/
theorem Ready.paths_iff {φ : V →+* ℂ} {ev : Nat → Option ℂ} (hev : q.Eigen φ ev)
    (hu : NoUnitRoot q.eigs.length ev) {k : Nat} (hk : k ≤ s.rhs.r)
    (hc : (q.eigs.countP fun x => x.big || x.inf) = s.rhs.r - k) (nExog : Nat) :
    OneBoundedPath φ t nExog J ↔ k = t.pureBackward.length + t.mixed.length ∧
      ∀ v : Nat → V, (∀ i, k ≤ i → i < s.rhs.r → ∑ j ∈ Finset.Ico k s.rhs.r, q.Zt.e j i * v j = 0) →
        ∀ j, k ≤ j → j < s.rhs.r → v j = 0 := by
  have g := groups hR.cur
  have gt := g.total
  have hN := hR.size
  have den := drEnum g (IsEnum.fin t.n)
  have hsub : ∀ i r (a b : Nat → V), rowPart t.toTyper J i r (fun c => a c - b c) =
      rowPart t.toTyper J i r a - rowPart t.toTyper J i r b := by
    intro i r a b
    unfold rowPart
    rw [sumTo_eq, sumTo_eq, sumTo_eq, ← Finset.sum_sub_distrib]
    refine Finset.sum_congr rfl fun c _ => ?_
    cases t.cell r c with
    | none => simp
    | some k => simp only; ring
  rw [← pencil_determinate hR.dec hev hu hk hc (nb := t.pureBackward.length + t.mixed.length) (by omega)]
  unfold OneBoundedPath BoundedPath
  rw [hR.square]
  constructor
  · intro hone
    refine ⟨?_, ?_⟩
    · intro st
      obtain ⟨y0, hy0⟩ := hR.initial st
      obtain ⟨y, h0, ⟨hy, hb⟩, -⟩ := hone y0
      refine ⟨pencilOf t y, hR.project hy, hR.project_bounded hb, fun j hj => ?_⟩
      rw [pencilOf, if_pos hj, h0, hy0 j hj]
    · intro x hx hb h0
      obtain ⟨y, hy0, hy, hyb, hyx⟩ := hR.lift nExog hx hb (y0 := fun _ => 0) h0
      obtain ⟨w, -, -, huniq⟩ := hone fun _ => 0
      have hz := huniq (fun _ _ => 0) rfl ⟨fun τ => (hR.rows nExog _ _ _).mpr fun i _ => by
        unfold rowPart
        simp only [mul_zero]
        rw [sumTo_eq, sumTo_eq, sumTo_eq, Finset.sum_eq_zero, Finset.sum_eq_zero, Finset.sum_eq_zero]
        · simp
        all_goals intro c _; split <;> rfl, 0, fun _ _ _ => by simp⟩
      have hy' := huniq y hy0 ⟨hy, hyb⟩
      have hyz : ∀ τ, ∀ c < t.n, y τ c = 0 := fun τ c hc => by rw [hy' τ c hc, ← hz τ c hc]
      intro τ j hj
      rw [← hyx τ j hj]
      unfold pencilOf
      have hd : ∀ i < t.n, t.dr i < t.n := fun i hi => den.lt ⟨i, hi⟩
      split
      · exact hyz _ _ (hd _ (by omega))
      · exact hyz _ _ (hd _ (by omega))
  · rintro ⟨hex, huniq⟩ y0
    obtain ⟨x, hx, hb, h0⟩ := hex fun j => y0 (t.dr (t.static.length + j))
    obtain ⟨y, hy0, hy, hyb, hyx⟩ := hR.lift nExog hx hb (y0 := y0) h0
    refine ⟨y, hy0, ⟨hy, hyb⟩, ?_⟩
    rintro y' hy0' ⟨hy', B', hB'⟩
    obtain ⟨B, hB⟩ := hyb
    have hd : ∀ τ, ∀ i < t.n, linearised t nExog J i (fun c => y' τ c - y τ c) (fun c => y' (τ + 1) c - y (τ + 1) c)
        (fun c => y' (τ + 2) c - y (τ + 2) c) (fun _ => 0) = 0 := by
      intro τ i hi
      have h1 := hy τ i hi
      have h2 := hy' τ i hi
      have h00 : (sumTo nExog fun k => J.e i (t.count + k) * 0) = 0 := by
        rw [sumTo_eq]
        exact Finset.sum_eq_zero fun _ _ => mul_zero _
      unfold linearised at h1 h2 ⊢
      rw [h00] at h1 h2 ⊢
      rw [hsub, hsub, hsub]
      linear_combination h2 - h1
    have hdb : PathBounded φ t.n fun τ c => y' τ c - y τ c := by
      refine ⟨B' + B, fun τ c hc => ?_⟩
      rw [map_sub]
      exact (norm_sub_le _ _).trans (add_le_add (hB' τ c hc) (hB τ c hc))
    have hz := huniq _ (hR.project (y := fun τ c => y' τ c - y τ c) hd) (hR.project_bounded hdb) (fun j hj => by
      rw [pencilOf, if_pos hj, hy0, hy0', sub_self])
    intro τ c hc
    rcases τ with _ | τ
    · rw [hy0, hy0']
    · exact sub_eq_zero.mp (hR.lift_zero hd hz τ c hc)

/-- where the decomposition is cut, if all explosive eigenvalues are recognised -/
theorem Ready.cut_eq {φ : V →+* ℂ} {ev : Nat → Option ℂ} (hev : q.Eigen φ ev)
    (hu : NoUnitRoot q.eigs.length ev) {k : Nat} (hk : k ≤ s.rhs.r)
    (hc : (q.eigs.countP fun x => x.big || x.inf) = s.rhs.r - k) (hkN : k < s.rhs.r)
    (hre : ∀ i < q.eigs.length, ∀ z, ev i = some z → 1 < ‖z‖ → 1 < z.re) {expl : Int}
    (hexpl : findFirst (q.eigs.map fun x => x.gt1 || x.inf) = .ok expl) : cutAt q.Zt.r expl = k := by
  have hcnt := hR.dec.count
  obtain ⟨s1, s2, s3, -⟩ := split_at hR.dec hev hu hk hc
  have hflag : ∀ (i : Nat) e, q.eigs[i]? = some e → ((e.gt1 || e.inf) = true ↔ k ≤ i) := by
    intro i e he
    rw [← s3 i e he]
    have hi : i < q.eigs.length := (List.getElem?_eq_some_iff.mp he).1
    simp only [Bool.or_eq_true]
    cases hw : ev i with
    | none => simp [(hev.infinite i e he).mpr hw]
    | some z =>
      have h1 := hev.big i e z he hw
      have h2 := hev.gt1 i e z he hw
      refine or_congr_left ?_
      rw [h1, h2]
      constructor
      · rintro (h | ⟨h, h'⟩)
        · exact lt_of_lt_of_le h (Complex.re_le_norm z)
        · rw [Complex.norm_def, Real.lt_sqrt zero_le_one, Complex.normSq_apply, h]
          nlinarith
      · intro h
        exact .inl (hre i hi z hw h)
  obtain ⟨-, ⟨-, hall⟩ | ⟨k', rfl, hk', ⟨e, he, hge⟩, hlt⟩⟩ := findFirst_spec hexpl
  · have hkl : k < q.eigs.length := by omega
    have := (hflag k _ (List.getElem?_eq_getElem hkl)).mpr le_rfl
    rw [hall _ (List.getElem_mem hkl)] at this
    cases this
  · have h1 := (hflag k' e he).mp hge
    have hkl : k < q.eigs.length := by omega
    have h2 : ¬ k < k' := by
      intro h
      have := (hflag k _ (List.getElem?_eq_getElem hkl)).mpr le_rfl
      rw [hlt k h _ (List.getElem?_eq_getElem hkl)] at this
      cases this
    unfold cutAt
    rw [if_neg (by omega)]
    simp only [Int.toNat_natCast]
    omega

/-- the check, if all explosive eigenvalues are recognised -/
theorem Ready.verify_iff {φ : V →+* ℂ} {ev : Nat → Option ℂ} (hrk : la.RankExact) (hev : q.Eigen φ ev)
    (hu : NoUnitRoot q.eigs.length ev) {k : Nat} (hk : k ≤ s.rhs.r)
    (hc : (q.eigs.countP fun x => x.big || x.inf) = s.rhs.r - k) (hf : 0 < t.nForward)
    (hre : ∀ i < q.eigs.length, ∀ z, ev i = some z → 1 < ‖z‖ → 1 < z.re) :
    s.verify la t.toTyper = .ok () ↔ k = t.pureBackward.length + t.mixed.length ∧
      ∀ v : Nat → V, (∀ i, k ≤ i → i < s.rhs.r → ∑ j ∈ Finset.Ico k s.rhs.r, q.Zt.e j i * v j = 0) →
        ∀ j, k ≤ j → j < s.rhs.r → v j = 0 := by
  have hN := hR.size
  obtain ⟨hnf, hnb, hnm, hnb', hnf', _⟩ := C31_sizes t.toTyper
  have hcnt := hR.dec.count
  have hZr : q.Zt.r = s.rhs.r := (hR.dec.shape _ (by simp)).1
  obtain ⟨s1, s2, s3, -⟩ := split_at hR.dec hev hu hk hc
  unfold Space.verify
  rw [hR.eigs, hc]
  by_cases hkk : k = t.pureBackward.length + t.mixed.length
  · rw [if_neg (by rw [not_not]; omega)]
    simp only [hkk, true_and]
    rw [← hkk]
    have hkN : k < s.rhs.r := by omega
    -- the cut
    obtain ⟨expl, hexpl, hZ⟩ := hR.cut
    have hcut := hR.cut_eq hev hu hk hc hkN hre hexpl
    rw [hcut, hZr] at hZ
    have hZ2r : s.parts.Z22.r = s.rhs.r - k := by
      rw [hZ]; simp only [Arr.slice]
    have hZ2c : s.parts.Z22.c = s.rhs.r - k := by
      rw [hZ]; simp only [Arr.slice]
    have hZe : ∀ i j, s.parts.Z22.e i j = q.Zt.e (k + j) (k + i) := by
      intro i j
      rw [hZ]
      simp only [Arr.slice, Arr.tr, Nat.add_comm]
    have hinj := rank_inj (Matrix.of fun (i : Fin s.parts.Z22.r) (j : Fin s.parts.Z22.c) => s.parts.Z22.e i j)
    rw [← hrk] at hinj
    have hsum : ∀ (i : Fin s.parts.Z22.r) (v : Nat → V),
        ((Matrix.of fun (i : Fin s.parts.Z22.r) (j : Fin s.parts.Z22.c) => s.parts.Z22.e i j) *ᵥ fun j => v (k + j)) i =
        ∑ j ∈ Finset.Ico k s.rhs.r, q.Zt.e j (k + i) * v j := by
      intro i v
      rw [Ico_fin]
      simp only [mulVec, dotProduct, Matrix.of_apply, hZe]
      exact Fintype.sum_equiv (finCongr hZ2c) _ _ fun j => rfl
    constructor
    · intro h
      split at h
      · cases h
      · rename_i hne
        have hr := hinj.mp (by rw [not_not.mp hne]; omega)
        intro v hv j h1 h2
        have := hr (fun j => v (k + j)) (by
          funext i
          rw [hsum]
          have := i.2
          exact hv _ (by omega) (by omega))
        have := congrFun this ⟨j - k, by omega⟩
        simpa [Nat.add_sub_cancel' h1] using this
    · intro h
      rw [if_neg]
      rw [not_not]
      have := hinj.mpr (by
        intro v hv
        have hz := h (fun j => if hj : j - k < s.parts.Z22.c then v ⟨j - k, hj⟩ else 0) (by
          intro i h1 h2
          have := congrFun hv ⟨i - k, by omega⟩
          refine Eq.trans ?_ this
          have hs := hsum ⟨i - k, by omega⟩ (fun j => if hj : j - k < s.parts.Z22.c then v ⟨j - k, hj⟩ else 0)
          simp only [Nat.add_sub_cancel' h1] at hs
          rw [← hs]
          congr 1
          funext j
          simp)
        funext j
        have hj := j.2
        have := hz (k + j) (by omega) (by omega)
        simpa [Nat.add_sub_cancel_left] using this)
      rw [this]; omega
  · rw [if_pos (by omega)]
    constructor
    · intro h; cases h
    · rintro ⟨h, -⟩; exact absurd h hkk

end

end Pynare
