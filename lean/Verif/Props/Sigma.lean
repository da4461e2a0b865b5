import Mathlib.Analysis.Real.Sqrt
import Verif.Lemmas.Sigma
import Verif.Props.Factory
/-!
# C24, C37 and the default variance of C22: the covariance matrix of the shocks

`facShocks ops sq ρ [] ss = .ok d` – the statements `ss` of a shocks block, read with the values
`ρ` of the names, give the table `d`; `createStochs d names` – the stochastic variables `names` of
the model; `defineSigma sqrt shks` – their covariance matrix; `PlainShocks`, `VarOf` – see
`Verif/Spec/Sigma.lean`.
-/

namespace Pynare

variable {V : Type}

/-! ### C37: symmetry -/

/-- **C37.** For every list of shocks, if the covariance matrix is defined it is symmetric, and the
diagonal entry of every shock that does not name itself as partner is its variance (zero if it
has none). -/
theorem C37_sigma_symmetric [Zero V] [Mul V] {sqrt : V → V} {shks : List (Stoch V)} {sig : Sig V}
    (h : defineSigma sqrt shks = .ok sig) :
    (∀ i j, sig i j = sig j i) ∧
    (∀ (i : Nat) s, shks[i]? = some s → ¬ (s.name = s.other ∧ (s.corr ≠ none ∨ s.cov ≠ none)) →
      sig i i = s.variance.getD 0) := by
  refine ⟨sigmaLoop_symm h, ?_⟩
  intro i s hs hn
  rw [sigmaLoop_diag i (fun s' hs' => by rw [hs] at hs'; cases hs'; exact hn) h]
  simp [sigmaDiag, hs]

/-- non-trivial case: two correlated shocks and a third one -/
example : ∃ sig : Sig Nat,
    defineSigma id [⟨"a", "b", some 2, some 3, none⟩, ⟨"b", "", some 5, none, none⟩,
      ⟨"c", "a", none, none, some 7⟩] = .ok sig ∧ sig 0 1 = 30 ∧ sig 2 0 = 7 ∧ sig 1 1 = 5 :=
  ⟨_, rfl, rfl, rfl, rfl⟩

/-! ### C24: what reaches the matrix -/

/-- **C24, as stated, is false, first reason**: a shock holds one partner, so that of two pairs
with the same first shock only the last one is kept.  `var a = 1; var b = 1; var c = 1;
var a, b = 2; var a, c = 3;` gives `a`, `b` covariance 0. -/
theorem C24_second_pair_replaces_first : ∃ (ss : List (Shock Nat)) (d : Dict (ShockDict Nat))
    (sig : Sig Nat), Shock.cov "a" "b" (.num 2) ∈ ss ∧
    facShocks natOps (fun n => .ok (n * n)) noValues [] ss = .ok d ∧
    defineSigma id (createStochs d ["a", "b", "c"]) = .ok sig ∧
    sig 0 1 = 0 ∧ sig 0 2 = 3 :=
  ⟨[.variance "a" (.num 1), .variance "b" (.num 1), .variance "c" (.num 1),
    .cov "a" "b" (.num 2), .cov "a" "c" (.num 3)], _, _, by simp, rfl, rfl, rfl, rfl⟩

/-- **C24, as stated, is false, second reason**: a shock named first in a pair loses the default
variance: `var a, b = 2;` alone gives `a` variance 0 (`b` has 1), and `corr a, b = 2;` alone
raises `TypeError` when the matrix is computed. -/
theorem C24_pair_without_variance : (∃ (d : Dict (ShockDict Nat)) (sig : Sig Nat),
      facShocks natOps (fun n => .ok (n * n)) noValues [] [.cov "a" "b" (.num 2)] = .ok d ∧
      defineSigma id (createStochs d ["a", "b"]) = .ok sig ∧
      sig 0 0 = 0 ∧ sig 1 1 = 1 ∧ sig 0 1 = 2) ∧
    (∃ d : Dict (ShockDict Nat),
      facShocks natOps (fun n => .ok (n * n)) noValues [] [.corr "a" "b" (.num 2)] = .ok d ∧
      defineSigma id (createStochs d ["a", "b"]) = .error .typeError) :=
  ⟨⟨_, _, rfl, rfl, rfl, rfl, rfl⟩, ⟨_, rfl, rfl⟩⟩

/-- **C24, as stated, is false, third reason**: a covariance statement and a later correlation
statement with the same first shock are mixed up.  After `var a, b = 2; corr a, c = 3;` the
covariance 2 is attributed to `a`, `c`, and both the pair `a`, `b` and the correlation are lost. -/
theorem C24_covariance_hides_correlation : ∃ (ss : List (Shock Nat)) (d : Dict (ShockDict Nat))
    (sig : Sig Nat), ss.getLast? = some (.corr "a" "c" (.num 3)) ∧
    facShocks natOps (fun n => .ok (n * n)) noValues [] ss = .ok d ∧
    defineSigma id (createStochs d ["a", "b", "c"]) = .ok sig ∧
    sig 0 1 = 0 ∧ sig 0 2 = 2 :=
  ⟨[.variance "a" (.num 1), .variance "b" (.num 1), .variance "c" (.num 1),
    .cov "a" "b" (.num 2), .corr "a" "c" (.num 3)], _, _, rfl, rfl, rfl, rfl, rfl⟩

/-- **C24, what does hold** (partial: the block must be plain – see `PlainShocks`).  For every
plain block whose variance statements have values, whatever the order of the statements, the
covariance matrix is defined; its diagonal holds the stated variances and squared standard errors
and 1 for shocks that are not mentioned; a correlation statement puts, on both sides, the
correlation times the root of the product of the two variances; a covariance statement puts the
covariance on both sides; all other entries are zero. -/
theorem C24_covariance_partial [One V] [Zero V] [Mul V] {ops : Ops V} {sq : V → Except Err V}
    {sqrt : V → V} {ρ : String → Option V} {names : List String} {ss : List (Shock V)}
    {d : Dict (ShockDict V)} (h : facShocks ops sq ρ [] ss = .ok d) (hp : PlainShocks names ss)
    (hval : ∀ s ∈ ss, ∀ x, s.isVarOf x → ∃ v, SetsVar ops sq ρ s x v) :
    ∃ sig, defineSigma sqrt (createStochs d names) = .ok sig ∧
      (∀ (i : Nat) x v, names[i]? = some x → VarOf ops sq ρ ss x v → sig i i = v) ∧
      (∀ (i j : Nat) x y e c vx vy, names[i]? = some x → names[j]? = some y →
        Shock.corr x y e ∈ ss → Evals ops ρ e c → VarOf ops sq ρ ss x vx →
        VarOf ops sq ρ ss y vy →
        sig i j = sqrt (vx * vy) * c ∧ sig j i = sqrt (vx * vy) * c) ∧
      (∀ (i j : Nat) x y e c, names[i]? = some x → names[j]? = some y →
        Shock.cov x y e ∈ ss → Evals ops ρ e c → sig i j = c ∧ sig j i = c) ∧
      (∀ (i j : Nat) x y, i ≠ j → names[i]? = some x → names[j]? = some y →
        (∀ s ∈ ss, ¬ s.isPair x y ∧ ¬ s.isPair y x) → sig i j = 0) := by
  have hself : ∀ s ∈ createStochs d names, ¬ SelfRef s := by
    intro s hs
    obtain ⟨x, _, rfl⟩ := List.mem_map.mp hs
    exact plain_selfRef hp h x
  have hok : ∀ s ∈ createStochs d names, s.corr ≠ none → s.variance ≠ none := by
    intro s hs hc
    obtain ⟨x, _, rfl⟩ := List.mem_map.mp hs
    obtain ⟨t, ht, y, hy⟩ := createStoch_pair h (.inl hc)
    obtain ⟨u, hu, hux⟩ := hp.hasVar t ht x (Shock.isPairOf_of_isPair hy)
    obtain ⟨v, hv⟩ := hval u hu x hux
    rw [createStoch_of_get (get_of_mentioned h hu (.inl hux))]
    simp [plain_var hp h hu hv]
  obtain ⟨sig, hsig⟩ := sigmaLoop_ok (sqrt := sqrt) hok (createStochs d names).length
  have hvar : ∀ x v, VarOf ops sq ρ ss x v → (createStoch d x).variance = some v := by
    intro x v hv
    cases hv with
    | stated hs hv =>
      rw [createStoch_of_get (get_of_mentioned h hs (.inl hv.isVarOf))]
      exact plain_var hp h hs hv
    | omitted hn =>
      have := (facShocks_keep x ss h).2.2.1 hn
      simp [createStoch, this, Dict.get?]
  have hd : ∀ (i : Nat) x v, names[i]? = some x → VarOf ops sq ρ ss x v →
      sigmaDiag (createStochs d names) i i = v := by
    intro i x v hi hv
    simp [sigmaDiag, createStochs, hi, hvar x v hv]
  have hlen : (createStochs d names).length = names.length := by simp [createStochs]
  have lt : ∀ {i : Nat} {x}, names[i]? = some x → i < (createStochs d names).length := by
    intro i x hi
    rw [hlen]
    exact (List.getElem?_eq_some_iff.mp hi).1
  have pair : ∀ (i j : Nat) x y s v, names[i]? = some x → names[j]? = some y → s ∈ ss →
      s.isPair x y → tells sqrt (createStochs d names) i j = some v → sig i j = v := by
    intro i j x y s v hi hj hs hxy ht
    have hne : i ≠ j := by
      rintro rfl
      rw [hi] at hj; cases hj
      exact (hp.proper s hs x x hxy).1 rfl
    rw [sigmaLoop_entry hself hne (lt hi) (lt hj) hsig]
    exact lastEntry_one ht (plain_tells_none hp h hj hi (hp.proper s hs x y hxy).2) _ (lt hi)
  have sym := sigmaLoop_symm hsig
  refine ⟨sig, hsig, ?_, ?_, ?_, ?_⟩
  · intro i x v hi hv
    rw [sigmaLoop_diag i (fun s hs => hself s (List.mem_of_getElem? hs)) hsig]
    exact hd i x v hi hv
  · intro i j x y e c vx vy hi hj hs he hx hy
    have := pair i j x y _ (sqrt (vx * vy) * c) hi hj hs ⟨rfl, rfl⟩ (by
      rw [plain_tells hp h hi hj hs ⟨rfl, rfl⟩, hd j y vy hj hy]
      have hv := hvar x vx hx
      rw [createStoch_of_get (get_of_mentioned h hs (.inr rfl))] at hv ⊢
      obtain ⟨c1, c2⟩ := plain_corr hp h hs he
      simp only at hv
      simp [entry, c1, c2, hv])
    exact ⟨this, by rw [sym j i]; exact this⟩
  · intro i j x y e c hi hj hs he
    have := pair i j x y _ c hi hj hs ⟨rfl, rfl⟩ (by
      rw [plain_tells hp h hi hj hs ⟨rfl, rfl⟩]
      rw [createStoch_of_get (get_of_mentioned h hs (.inr rfl))]
      simp [entry, plain_cov hp h hs he])
    exact ⟨this, by rw [sym j i]; exact this⟩
  · intro i j x y hne hi hj hno
    rw [sigmaLoop_entry hself hne (lt hi) (lt hj) hsig]
    exact lastEntry_none (plain_tells_none hp h hi hj fun t ht => (hno t ht).1)
      (plain_tells_none hp h hj hi fun t ht => (hno t ht).2) _

/-- non-trivial case of `C24_covariance_partial`: one correlated pair, a standard error, and a
shock that is not mentioned -/
example : ∃ (ss : List (Shock Nat)) (d : Dict (ShockDict Nat)),
    facShocks natOps (fun n => .ok (n * n)) noValues [] ss = .ok d ∧
    PlainShocks ["a", "b", "c"] ss ∧
    (∀ s ∈ ss, ∀ x, s.isVarOf x → ∃ v, SetsVar natOps (fun n => .ok (n * n)) noValues s x v) := by
  refine ⟨[.corr "a" "b" (.num 1), .stderr "a" (.num 2), .variance "b" (.num 9)], _, rfl, ?_, ?_⟩
  · refine ⟨?_, ?_, ?_, ?_, ?_⟩
    · intro pre s post he x hs t ht
      rcases pre with _ | ⟨p, _ | ⟨q, _ | ⟨r, _ | _⟩⟩⟩ <;> simp at he <;>
        (try (obtain ⟨rfl, rfl⟩ := he)) <;> (try (obtain ⟨_, rfl, rfl⟩ := he)) <;>
        (try (obtain ⟨_, _, rfl, rfl⟩ := he)) <;> simp [Shock.isVarOf] at hs ht ⊢
      subst hs ht; simp
    · intro pre s post he x hs t ht
      rcases pre with _ | ⟨p, _ | ⟨q, _ | ⟨r, _ | _⟩⟩⟩ <;> simp at he <;>
        (try (obtain ⟨rfl, rfl⟩ := he)) <;> (try (obtain ⟨_, rfl, rfl⟩ := he)) <;>
        (try (obtain ⟨_, _, rfl, rfl⟩ := he)) <;> simp [Shock.isPairOf] at hs ht ⊢
      rcases ht with rfl | rfl <;> simp
    · intro s hs x hx
      simp at hs
      rcases hs with rfl | rfl | rfl <;> simp [Shock.isPairOf, Shock.isVarOf] at hx ⊢
      exact .inl hx
    · intro s hs x y hx
      simp at hs
      rcases hs with rfl | rfl | rfl <;> simp [Shock.isPair] at hx ⊢
      exact ⟨.inl hx.1.symm, .inr (.inl hx.2.symm)⟩
    · intro s hs x y hx
      simp at hs
      rcases hs with rfl | rfl | rfl <;> simp [Shock.isPair] at hx ⊢
      obtain ⟨rfl, rfl⟩ := hx; simp
  · intro s hs x hx
    simp at hs
    rcases hs with rfl | rfl | rfl <;> simp [Shock.isVarOf] at hx
    · subst hx; exact ⟨4, .stderr .num rfl⟩
    · subst hx; exact ⟨9, .variance .num⟩

/-- **C24, over the reals** (partial in the same way).  A correlation statement of a plain block
about two shocks of positive variance is exactly the correlation that the covariance matrix
gives them. -/
theorem C24_correlation_recovered_partial {ops : Ops ℝ} {sq : ℝ → Except Err ℝ}
    {ρ : String → Option ℝ} {names : List String} {ss : List (Shock ℝ)}
    {d : Dict (ShockDict ℝ)} (h : facShocks ops sq ρ [] ss = .ok d) (hp : PlainShocks names ss)
    (hval : ∀ s ∈ ss, ∀ x, s.isVarOf x → ∃ v, SetsVar ops sq ρ s x v) :
    ∃ sig, defineSigma Real.sqrt (createStochs d names) = .ok sig ∧
      ∀ (i j : Nat) x y e c vx vy, names[i]? = some x → names[j]? = some y →
        Shock.corr x y e ∈ ss → Evals ops ρ e c → VarOf ops sq ρ ss x vx →
        VarOf ops sq ρ ss y vy → 0 < vx → 0 < vy →
        sig i j / (Real.sqrt (sig i i) * Real.sqrt (sig j j)) = c := by
  obtain ⟨sig, h1, h2, h3, _⟩ := C24_covariance_partial (sqrt := Real.sqrt) h hp hval
  refine ⟨sig, h1, ?_⟩
  intro i j x y e c vx vy hi hj hs he hx hy px py
  rw [(h3 i j x y e c vx vy hi hj hs he hx hy).1, h2 i x vx hi hx, h2 j y vy hj hy,
    Real.sqrt_mul px.le]
  have a := (Real.sqrt_pos.mpr px).ne'
  have b := (Real.sqrt_pos.mpr py).ne'
  field_simp

/-- **C24, for a model file** (partial in the same way): the matrix of the model made from an
accepted file is that of its shocks block, read with the values that executing the preamble gives
the names. -/
theorem C24_model_file_partial [One V] [Zero V] [Mul V] {ops : Ops V} {sq : V → Except Err V}
    {sqrt : V → V} {m : ModelFile V} {o : Outline V} (h : createOutline ops sq m = .ok o)
    {ρ : String → Option V} (hρ : Exec ops noValues m.params ρ) {b : Shocks V}
    (hb : m.actions.shocks = some b) (hp : PlainShocks o.stoch b.shocks)
    (hval : ∀ s ∈ b.shocks, ∀ x, s.isVarOf x → ∃ v, SetsVar ops sq ρ s x v) :
    ∃ sig, defineSigma sqrt (createStochs o.shocks o.stoch) = .ok sig ∧
      (∀ (i : Nat) x v, o.stoch[i]? = some x → VarOf ops sq ρ b.shocks x v → sig i i = v) ∧
      (∀ (i j : Nat) x y e c vx vy, o.stoch[i]? = some x → o.stoch[j]? = some y →
        Shock.corr x y e ∈ b.shocks → Evals ops ρ e c → VarOf ops sq ρ b.shocks x vx →
        VarOf ops sq ρ b.shocks y vy →
        sig i j = sqrt (vx * vy) * c ∧ sig j i = sqrt (vx * vy) * c) ∧
      (∀ (i j : Nat) x y e c, o.stoch[i]? = some x → o.stoch[j]? = some y →
        Shock.cov x y e ∈ b.shocks → Evals ops ρ e c → sig i j = c ∧ sig j i = c) ∧
      (∀ (i j : Nat) x y, i ≠ j → o.stoch[i]? = some x → o.stoch[j]? = some y →
        (∀ s ∈ b.shocks, ¬ s.isPair x y ∧ ¬ s.isPair y x) → sig i j = 0) := by
  obtain ⟨_, o1, s, st, o2, b', d, h1, h2, h3, h4, hb', h6, rfl⟩ := createOutline_inv h
  rw [hb] at hb'; cases hb'
  have hm : memLookup [s.file, s.model] = ρ :=
    facAssigns_exec (facInv_start (facDecls_inv declInv_nil h1)) h2 (by rw [memLookup_empty]; exact hρ)
  rw [hm] at h6
  exact C24_covariance_partial h6 hp hval

/-- non-trivial case of the last theorem: a file with a plain shocks block -/
example : ∃ (m : ModelFile Nat) (o : Outline Nat) (b : Shocks Nat),
    createOutline natOps (fun n => .ok (n * n)) m = .ok o ∧ Exec natOps noValues m.params noValues ∧
    m.actions.shocks = some b ∧ b.shocks ≠ [] ∧ PlainShocks o.stoch b.shocks := by
  refine ⟨⟨[("y", "var"), ("e", "varexo"), ("u", "varexo")], [], [], [.eqn (.var "y") (.var "e") none],
    ⟨none, none, none, some ⟨[], [.variance "e" (.num 4)]⟩⟩⟩, _, _, rfl, .nil, rfl, by simp, ?_⟩
  refine ⟨?_, ?_, ?_, ?_, ?_⟩
  · intro pre s post he x hs t ht
    rcases pre with _ | ⟨p, _ | _⟩ <;> simp at he
    simp [he.2] at ht
  · intro pre s post he x hs t ht
    rcases pre with _ | ⟨p, _ | _⟩ <;> simp at he
    simp [he.2] at ht
  · intro s hs x hx; simp at hs; subst hs; exact absurd hx id
  · intro s hs x y hx; simp at hs; subst hs; exact absurd hx id
  · intro s hs x y hx; simp at hs; subst hs; exact absurd hx id

/-! ### C22: the default variance -/

/-- **C22, second half**: a shock about which the shocks block says nothing gets variance one and
no partner, in every model file. -/
theorem C22_omitted_variance_one [One V] {ops : Ops V} {sq : V → Except Err V} {m : ModelFile V}
    {o : Outline V} (h : createOutline ops sq m = .ok o) {b : Shocks V}
    (hb : m.actions.shocks = some b) {x : String}
    (hx : ∀ s ∈ b.shocks, ¬ s.isVarOf x ∧ ¬ s.isPairOf x) :
    createStoch o.shocks x = { name := x, variance := some 1 } := by
  obtain ⟨_, o1, s, st, o2, b', d, _, _, _, _, hb', h6, rfl⟩ := createOutline_inv h
  rw [hb] at hb'; cases hb'
  have := (facShocks_keep x b.shocks h6).2.2.1 hx
  simp [createStoch, this, Dict.get?]

/-- non-trivial case: the block mentions `e` but not `u` -/
example : ∃ (m : ModelFile Nat) (o : Outline Nat) (b : Shocks Nat),
    createOutline natOps (fun n => .ok (n * n)) m = .ok o ∧ "u" ∈ o.stoch ∧
    m.actions.shocks = some b ∧ b.shocks ≠ [] ∧
    ∀ s ∈ b.shocks, ¬ s.isVarOf "u" ∧ ¬ s.isPairOf "u" := by
  refine ⟨⟨[("y", "var"), ("e", "varexo"), ("u", "varexo")], [], [], [.eqn (.var "y") (.var "e") none],
    ⟨none, none, none, some ⟨[], [.variance "e" (.num 4)]⟩⟩⟩, _, _, rfl, by decide, rfl, by simp, ?_⟩
  intro s hs
  simp at hs; subst hs
  exact ⟨by simp [Shock.isVarOf], id⟩

#print axioms C37_sigma_symmetric
#print axioms C24_second_pair_replaces_first
#print axioms C24_pair_without_variance
#print axioms C24_covariance_hides_correlation
#print axioms C24_covariance_partial
#print axioms C24_correlation_recovered_partial
#print axioms C24_model_file_partial
#print axioms C22_omitted_variance_one

end Pynare
