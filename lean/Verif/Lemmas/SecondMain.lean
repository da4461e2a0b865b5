import Verif.Lemmas.SecondTaylor
/-!
# Lemmas about the second-order solution: its four arrays
-/

namespace Pynare

variable {V : Type} [CommRing V] [DecidableEq V]

set_option linter.unusedSectionVars false

open Nd (kronEnt)

/-! ### bilinear forms -/

theorem quadForm_congr {X X' : Arr V} {i r r' : Nat} {v v' w w' : Nat → V}
    (hX : ∀ a < r, ∀ b < r', X.e i (a * r' + b) = X'.e i (a * r' + b))
    (hv : ∀ a < r, v a = v' a) (hw : ∀ b < r', w b = w' b) : quadForm X i r v r' w = quadForm X' i r v' r' w' := by
  unfold quadForm
  refine sumTo_congr fun a ha => sumTo_congr fun b hb => ?_
  rw [hX a ha b hb, hv a ha, hw b hb]

theorem quadForm_scale {X X' : Arr V} {i r r' : Nat} {v w : Nat → V} {k : V}
    (hX : ∀ a < r, ∀ b < r', X.e i (a * r' + b) = k * X'.e i (a * r' + b)) :
    quadForm X i r v r' w = k * quadForm X' i r v r' w := by
  unfold quadForm
  simp only [sumTo_eq, Finset.mul_sum]
  refine Finset.sum_congr rfl fun a ha => Finset.sum_congr rfl fun b hb => ?_
  rw [hX a (Finset.mem_range.mp ha) b (Finset.mem_range.mp hb)]
  ring

theorem quadForm_symm {X : Arr V} {i r : Nat} {v w : Nat → V}
    (hX : ∀ a < r, ∀ b < r, X.e i (a * r + b) = X.e i (b * r + a)) :
    quadForm X i r v r w = quadForm X i r w r v := by
  unfold quadForm
  simp only [sumTo_eq]
  rw [Finset.sum_comm]
  refine Finset.sum_congr rfl fun a ha => Finset.sum_congr rfl fun b hb => ?_
  rw [hX b (Finset.mem_range.mp hb) a (Finset.mem_range.mp ha)]
  ring

theorem quadForm_add {X : Arr V} {i r : Nat} {v w : Nat → V}
    (hX : ∀ a < r, ∀ b < r, X.e i (a * r + b) = X.e i (b * r + a)) :
    quadForm X i r (fun a => v a + w a) r (fun a => v a + w a) =
      quadForm X i r v r v + 2 * quadForm X i r v r w + quadForm X i r w r w := by
  have h := quadForm_symm (v := v) (w := w) hX
  have e : quadForm X i r (fun a => v a + w a) r (fun a => v a + w a) =
      quadForm X i r v r v + quadForm X i r v r w + (quadForm X i r w r v + quadForm X i r w r w) := by
    unfold quadForm
    simp only [sumTo_eq, ← Finset.sum_add_distrib]
    exact Finset.sum_congr rfl fun a _ => Finset.sum_congr rfl fun b _ => by ring
  rw [e, ← h]
  ring

/-! ### symmetry -/

theorem kronEnt_swap {A B : Arr V} {r c i a b : Nat} {f : Nat → Nat → V} (ha : a < c) (hb : b < c)
    (h : ∀ p < r, ∀ q < r, A.e i (p * r + q) = B.e i (q * r + p)) :
    kronEnt A r f r c f i (a * c + b) = kronEnt B r f r c f i (b * c + a) := by
  unfold kronEnt
  rw [Nd.div_add hb, Nd.mod_add hb, Nd.div_add ha, Nd.mod_add ha]
  simp only [sumTo_eq]
  rw [Finset.sum_comm]
  refine Finset.sum_congr rfl fun p hp => Finset.sum_congr rfl fun q hq => ?_
  rw [h q (Finset.mem_range.mp hq) p (Finset.mem_range.mp hp)]
  ring

theorem mul_add_lt {a b c c' : Nat} (ha : a < c) (hb : b < c') : a * c' + b < c * c' := by
  calc a * c' + b < a * c' + c' := by omega
    _ = (a + 1) * c' := by rw [Nat.succ_mul]
    _ ≤ c * c' := Nat.mul_le_mul_right _ (by omega)

/-- the solution of the equation for the second derivatives with respect to the states is symmetric if
the equation is and has one solution -/
theorem ghxx_symm {n nt nz : Nat} {A C X hess : Arr V} {G Z : Nat → Nat → V}
    (hX : ∀ i < n, ∀ j < nt * nt,
        (sumTo n fun k => A.e i k * X.e k j) + (sumTo n fun k => C.e i k * kronEnt X nt G nt nt G k j) =
          - kronEnt hess nz Z nz nt Z i j)
    (uniq : ∀ X' : Arr V, X'.r = n → X'.c = nt * nt → (∀ i < n, ∀ j < nt * nt,
        (sumTo n fun k => A.e i k * X'.e k j) + (sumTo n fun k => C.e i k * kronEnt X' nt G nt nt G k j) =
          - kronEnt hess nz Z nz nt Z i j) → ∀ i < n, ∀ j < nt * nt, X'.e i j = X.e i j)
    (hs : ∀ i < n, ∀ p < nz, ∀ q < nz, hess.e i (p * nz + q) = hess.e i (q * nz + p)) :
    ∀ i < n, ∀ a < nt, ∀ b < nt, X.e i (a * nt + b) = X.e i (b * nt + a) := by
  intro i hi a ha b hb
  have := uniq ⟨n, nt * nt, fun k m => X.e k (m % nt * nt + m / nt)⟩ rfl rfl (by
    intro i hi j hj
    have ht : 0 < nt := by
      rcases Nat.eq_zero_or_pos nt with h | h
      · rw [h] at hj; omega
      · exact h
    have hd : j / nt < nt := Nat.div_lt_of_lt_mul hj
    have hm : j % nt < nt := Nat.mod_lt _ ht
    have hj' : j = j / nt * nt + j % nt := by rw [Nat.mul_comm]; exact (Nat.div_add_mod j nt).symm
    have sw : ∀ k, kronEnt ⟨n, nt * nt, fun k m => X.e k (m % nt * nt + m / nt)⟩ nt G nt nt G k j =
        kronEnt X nt G nt nt G k (j % nt * nt + j / nt) := by
      intro k
      have : ∀ p < nt, ∀ q < nt, (⟨n, nt * nt, fun k m => X.e k (m % nt * nt + m / nt)⟩ : Arr V).e k (p * nt + q) =
          X.e k (q * nt + p) := by
        intro p hp q hq
        show X.e k ((p * nt + q) % nt * nt + (p * nt + q) / nt) = _
        rw [Nd.div_add hq, Nd.mod_add hq]
      have h' := kronEnt_swap (c := nt) (f := G) hd hm this
      rw [← hj'] at h'
      exact h'
    have hh : kronEnt hess nz Z nz nt Z i j = kronEnt hess nz Z nz nt Z i (j % nt * nt + j / nt) := by
      have h' := kronEnt_swap (c := nt) (f := Z) hd hm (hs i hi)
      rw [← hj'] at h'
      exact h'
    rw [hh, ← hX i hi (j % nt * nt + j / nt) (mul_add_lt hm hd)]
    congr 1
    exact sumTo_congr fun k _ => by rw [sw]) i hi (a * nt + b) (mul_add_lt ha hb)
  rw [← this]
  show X.e i ((a * nt + b) % nt * nt + (a * nt + b) / nt) = _
  rw [Nd.div_add hb, Nd.mod_add hb]

theorem ghuu_symm {n nt ne nz : Nat} {A C X hess : Arr V} {Y U Zu : Nat → Nat → V}
    (hY : ∀ i < n, ∀ j < ne * ne, (sumTo n fun k => A.e i k * Y k j) + (sumTo n fun k => C.e i k *
          kronEnt X nt U nt ne U k j) = - kronEnt hess nz Zu nz ne Zu i j)
    (hA : A.r = n ∧ A.c = n ∧ ∃ inv, A.IsInv inv)
    (hX : ∀ i < n, ∀ a < nt, ∀ b < nt, X.e i (a * nt + b) = X.e i (b * nt + a))
    (hs : ∀ i < n, ∀ p < nz, ∀ q < nz, hess.e i (p * nz + q) = hess.e i (q * nz + p)) :
    ∀ i < n, ∀ a < ne, ∀ b < ne, Y i (a * ne + b) = Y i (b * ne + a) := by
  obtain ⟨h1, h2, inv, hinv⟩ := hA
  intro i hi a ha b hb
  refine sub_eq_zero.mp (inv_kills hinv h1 h2 (v := fun k => Y k (a * ne + b) - Y k (b * ne + a))
    (fun i hi => ?_) i hi)
  have e1 := hY i hi _ (mul_add_lt ha hb)
  have e2 := hY i hi _ (mul_add_lt hb ha)
  rw [kronEnt_swap ha hb (hs i hi)] at e1
  have e3 : (sumTo n fun k => C.e i k * kronEnt X nt U nt ne U k (a * ne + b)) =
      sumTo n fun k => C.e i k * kronEnt X nt U nt ne U k (b * ne + a) :=
    sumTo_congr fun k hk => by rw [kronEnt_swap ha hb (hX k hk)]
  rw [e3] at e1
  have e4 := add_right_cancel (e1.trans e2.symm)
  have : (sumTo n fun k => A.e i k * (Y k (a * ne + b) - Y k (b * ne + a))) =
      (sumTo n fun k => A.e i k * Y k (a * ne + b)) - sumTo n fun k => A.e i k * Y k (b * ne + a) := by
    simp only [sumTo_eq, ← Finset.sum_sub_distrib]
    exact Finset.sum_congr rfl fun k _ => by ring
  rw [this, e4, sub_self]

/-! ### all four arrays -/

/-- with one state, several shocks and as many forward-looking variables as shocks, the arrays to be
stacked have different widths -/
theorem hessCoefsDu_shape {t : Typer} (g : Groups t) (hs : t.nStatic = t.static.length) (ht : t.nT = 1)
    (hf : t.nF ≠ 1) {nExog : Nat} (hc : nExog ≠ 1) {gy gu zu : Nd V} {G U : Nat → Nat → V}
    (hgy : gy.Is t.n t.nT G) (hgu : gu.Is t.n nExog U) (h : hessCoefsDu t nExog gy gu = .ok zu) :
    t.nF ≠ nExog := by
  intro hne
  unfold hessCoefsDu at h
  obtain ⟨gc, hgc, h⟩ := Except.bind_eq_ok h
  obtain ⟨gf, hgf, h⟩ := Except.bind_eq_ok h
  obtain ⟨gs, hgs, h⟩ := Except.bind_eq_ok h
  obtain ⟨fo, hfo, h⟩ := Except.bind_eq_ok h
  have hgf := rows_fore g hgy hgf
  rw [tloc_eq g hs] at hgs
  obtain ⟨q1, q2, q3, hz⟩ := stack4_ok h
  rw [ht] at hgs hgf
  obtain ⟨l1, l2⟩ := Nd.loc_one hgu hgs
  cases gf with
  | num x => exact hgf.elim
  | mat a => exact absurd rfl hgf.1
  | vec n e =>
    obtain ⟨-, rfl, hge⟩ := hgf
    have e1 : (Nd.vec t.nF e).item? = none := by
      simp only [Nd.item?]
      rw [if_neg hf]
    obtain ⟨e', rfl, he'⟩ := l2 hc
    have e2 : (Nd.vec nExog e').item? = none := by
      simp only [Nd.item?]
      rw [if_neg hc]
    unfold matmulOrOuter Nd.matmulScalar at hfo
    rw [e1, e2] at hfo
    simp only [Nd.matmul] at hfo
    rw [if_pos hne] at hfo
    simp only at hfo
    rw [← Except.ok.inj hfo] at q2
    exact hc q2

/-- everything known about a second-order solution -/
structure SecondParts (half : V) (t : Llx) (ne : Nat) (J H sigma : Arr V) (G U : Nat → Nat → V)
    (s : SecondNd V) where
  A : Arr V
  C : Arr V
  hess : Arr V
  order : List Nat
  X : Arr V
  Y : Nat → Nat → V
  W : Nat → Nat → V
  d : Nat → V
  g : Groups t.toTyper
  count : t.count = t.nT + t.n + t.nF
  n1 : t.n ≠ 1
  shapes : (t.nF ≠ 1 ∨ t.nT ≠ 1) ∧ t.nF ≠ 0 ∧ (t.nT = 1 ∨ ne ≠ 1) ∧ (t.nT = 1 → ne ≠ 1 → t.nF ≠ ne)
  ho : squareCols (t.toTyper.drAll ne).length (t.toTyper.drAll ne) = .ok order
  hh : H.cols order = .ok hess
  hA : A.r = t.n ∧ A.c = t.n ∧ ∃ inv, A.IsInv inv
  eA : ∀ i < t.n, ∀ j < t.n, A.e i j = J.e i (t.col 1 j) + if t.nS ≤ j ∧ j < t.nS + t.nT then
        sumTo t.nF fun f => J.e i (t.col 2 (t.f0 + f)) * G (t.f0 + f) (j - t.nS) else 0
  eC : ∀ i < t.n, ∀ j < t.n, C.e i j = if t.f0 ≤ j then J.e i (t.col 2 j) else 0
  isX : s.ghxx.Is t.n (t.nT * t.nT) X.e
  isY : s.ghxu.Is t.n (t.nT * ne) Y
  isW : s.ghuu.Is t.n (ne * ne) W
  isd : s.del2.Is t.n 1 fun i _ => half * d i
  eqX : ∀ i < t.n, ∀ j < t.nT * t.nT, (sumTo t.n fun k => A.e i k * X.e k j) +
      (sumTo t.n fun k => C.e i k *
        kronEnt X t.nT (fun p => G (t.nS + p)) t.nT t.nT (fun p => G (t.nS + p)) k j) =
        - kronEnt hess (t.count + ne) (zxEnt t.toTyper G) (t.count + ne) t.nT (zxEnt t.toTyper G) i j
  uniqX : ∀ X' : Arr V, X'.r = t.n → X'.c = t.nT * t.nT → (∀ i < t.n, ∀ j < t.nT * t.nT,
      (sumTo t.n fun k => A.e i k * X'.e k j) + (sumTo t.n fun k => C.e i k *
        kronEnt X' t.nT (fun p => G (t.nS + p)) t.nT t.nT (fun p => G (t.nS + p)) k j) =
        - kronEnt hess (t.count + ne) (zxEnt t.toTyper G) (t.count + ne) t.nT (zxEnt t.toTyper G) i j) →
      ∀ i < t.n, ∀ j < t.nT * t.nT, X'.e i j = X.e i j
  eqY : ∀ i < t.n, ∀ j < t.nT * ne, (sumTo t.n fun k => A.e i k * Y k j) + (sumTo t.n fun k => C.e i k *
        kronEnt X t.nT (fun p => G (t.nS + p)) t.nT ne (fun q => U (t.nS + q)) k j) =
        - kronEnt hess (t.count + ne) (zxEnt t.toTyper G) (t.count + ne) ne (zuEnt t.toTyper G U) i j
  eqW : ∀ i < t.n, ∀ j < ne * ne, (sumTo t.n fun k => A.e i k * W k j) + (sumTo t.n fun k => C.e i k *
        kronEnt X t.nT (fun p => U (t.nS + p)) t.nT ne (fun q => U (t.nS + q)) k j) =
        - kronEnt hess (t.count + ne) (zuEnt t.toTyper G U) (t.count + ne) ne (zuEnt t.toTyper G U) i j
  eqd : ∀ i < t.n, (sumTo t.n fun k => del2Ent t.toTyper J G i k * d k) + (sumTo (ne * ne) fun m =>
        ((sumTo t.nF fun f => J.e i (t.col 2 (t.f0 + f)) * W (t.f0 + f) m) +
          sumTo t.nF fun p => sumTo t.nF fun q =>
            H.e i (t.col 2 (t.f0 + p) * (t.count + ne) + t.col 2 (t.f0 + q)) *
            (U (t.f0 + p) (m / ne) * U (t.f0 + q) (m % ne))) * sigma.e (m % ne) (m / ne)) = 0
  uniqd : ∀ x : Nat → V, (∀ i < t.n, (sumTo t.n fun k => del2Ent t.toTyper J G i k * x k) = 0) → ∀ k < t.n, x k = 0

set_option maxHeartbeats 800000 in
theorem secondParts {la : LinAlg V} (ex : la.Exact) {qz : Arr V → Arr V → Except Err (GQZ V)}
    (hqz : GQZExact qz) {half : V} {pss : List (List Int)} {t : Llx} (ht : buildLlx pss = .ok t)
    (hcur : ∀ c < t.n, t.has 1 c = true) (hstate : t.state ≠ []) {ne : Nat} {J H sigma gy gu : Arr V}
    (hgy : gy.r = t.n ∧ gy.c = t.nBackward) (hgu : gu.r = t.n ∧ gu.c = ne) (hH : H.r = t.n)
    (hsig : sigma.r = ne ∧ sigma.c = ne) {s : SecondNd V}
    (h : solveSecondOrder la qz half t.toTyper ne J H sigma (Nd.mat gy).squeeze (Nd.mat gu).squeeze = .ok s) :
    Nonempty (SecondParts half t ne J H sigma gy.e gu.e s) := by
  have g := groups hcur
  have hs := (C32_static_count_with_lag_partial ht hstate).1
  have hcount := count_eq ht hcur
  have hnb : t.nBackward = t.nT := (C31_sizes t.toTyper).2.2.2.1
  have ht0 : t.nT ≠ 0 := by
    intro h0
    rw [← hnb, (C31_sizes t.toTyper).2.1] at h0
    exact hstate (List.length_eq_zero_iff.mp h0)
  obtain ⟨n1, n2⟩ := nSum g
  have hlen : (t.toTyper.drAll ne).length = t.count + ne := by
    rw [drAll_length g, hcount]; rfl
  unfold solveSecondOrder at h
  obtain ⟨order, ho, h⟩ := Except.bind_eq_ok h
  obtain ⟨hess, hh, h⟩ := Except.bind_eq_ok h
  obtain ⟨⟨A, C, D⟩, hsys, h⟩ := Except.bind_eq_ok h
  obtain ⟨zx, hzx, h⟩ := Except.bind_eq_ok h
  obtain ⟨zu, hzu, h⟩ := Except.bind_eq_ok h
  obtain ⟨ghxx, hxx, h⟩ := Except.bind_eq_ok h
  obtain ⟨ghxu, hxu, h⟩ := Except.bind_eq_ok h
  obtain ⟨ghuu, huu, h⟩ := Except.bind_eq_ok h
  obtain ⟨del2, hdel, h⟩ := Except.bind_eq_ok h
  have hn : t.n ≠ 1 := by
    intro hn
    have : (Nd.mat gy).squeeze = .num (gy.e 0 0) := by
      unfold Nd.squeeze
      simp only
      rw [if_pos (by omega), if_pos (by omega)]
    rw [this] at hsys
    unfold setupSystem at hsys
    obtain ⟨x, -, hsys⟩ := Except.bind_eq_ok hsys
    obtain ⟨fj, hfj, hsys⟩ := Except.bind_eq_ok hsys
    obtain ⟨gyf, hgf, hsys⟩ := Except.bind_eq_ok hsys
    cases hgf
  have hGy : (Nd.mat gy).squeeze.Is t.n t.nT gy.e := squeeze_is' (by omega) (by omega) hn
  have hGu : (Nd.mat gu).squeeze.Is t.n ne gu.e := squeeze_is' (by omega) (by omega) hn
  obtain ⟨hJ, hf, hf0, ⟨A1, A2, A3⟩, ⟨C1, C2, C3⟩, D1, D2, D3⟩ := setupSystem_ok g hs hn hGy hsys
  have hZx := hessCoefsDx_ok g hs hn (by omega) hf ht0 hGy hzx
  have hZu := hessCoefsDu_ok g hs hn (by omega) hf ht0 hGy hGu hzu
  obtain ⟨hh1, hh2, hh3⟩ := cols_e hh
  obtain ⟨o1, -, -⟩ := squareCols_ok ho
  have hhc : hess.c ≠ 1 := by
    rw [hh2, o1, hlen]
    intro h1
    have : 2 ≤ t.count + ne := by omega
    have : 2 * 2 ≤ (t.count + ne) * (t.count + ne) := Nat.mul_le_mul this this
    omega
  rw [← hcount] at hZx hZu
  rw [hnb] at hxx
  rw [tloc_eq g hs] at hxu huu
  obtain ⟨X, X1, X2, X3, X4, X5⟩ := solveGhxx_ok ex hqz (G := fun p => gy.e (t.nS + p))
    (hh1.trans hH) hhc hZx D3 hxx
  obtain ⟨hne, Y, Y1, Y2⟩ := solveGhxu_ok ex hn ht0 (hh1.trans hH) ⟨C1, C2⟩ hZx hZu hGy hGu X3 hxu
  obtain ⟨W, W1, W2, W3, W4, W5⟩ := solveGhuu_ok ex hn hne (hh1.trans hH) hhc ⟨C1, C2⟩ hZu hGu X3 huu
  rw [hlen] at hdel
  obtain ⟨d, d1, d2, d3⟩ := solveDel2_ok g hs ex hn hf hf0 hne hJ hH hGy hGu W1 hsig hdel
  have hsh : t.nT = 1 → ne ≠ 1 → t.nF ≠ ne := fun h1 h2 =>
    hessCoefsDu_shape g hs h1 (hf.resolve_right fun hne => hne h1) h2 hGy hGu hzu
  have := Except.ok.inj h
  subst this
  exact ⟨{ A := A, C := C, hess := hess, order := order, X := X, Y := Y, W := W, d := d, g := g, count := hcount
           n1 := hn
           shapes := ⟨hf, hf0, hne, hsh⟩
           ho := ho, hh := hh, hA := ⟨W3, W4, W5⟩, eA := A3, eC := C3, isX := X3, isY := Y1, isW := W1, isd := d1
           eqX := X4, uniqX := X5, eqY := Y2, eqW := W2, eqd := d2, uniqd := d3 }⟩

end Pynare
