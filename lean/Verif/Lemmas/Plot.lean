import Verif.Model.Plot
import Mathlib.Data.Nat.Sqrt
import Mathlib.Data.List.Perm.Basic
import Mathlib.Data.List.Nodup
/-!
# Lemmas about the arrangement of plots
-/

namespace Pynare

theorem ceilSqrt_le_sq (n : Nat) : n ≤ ceilSqrt n * ceilSqrt n := by
  unfold ceilSqrt
  by_cases h : n.sqrt * n.sqrt = n
  · rw [if_pos h, h]
  · rw [if_neg h]
    exact Nat.le_of_lt (Nat.lt_succ_sqrt n)

theorem ceilSqrt_min {n k : Nat} (h : n ≤ k * k) : ceilSqrt n ≤ k := by
  unfold ceilSqrt
  by_cases hs : n.sqrt * n.sqrt = n
  · rw [if_pos hs]
    by_contra hk
    have h1 : k < n.sqrt := Nat.lt_of_not_le hk
    have h2 : k * k < n.sqrt * n.sqrt := Nat.mul_lt_mul'' h1 h1
    omega
  · rw [if_neg hs]
    by_contra hk
    have h1 : k ≤ n.sqrt := by omega
    have h2 : k * k ≤ n.sqrt * n.sqrt := Nat.mul_le_mul h1 h1
    have h3 : n.sqrt * n.sqrt ≤ n := Nat.sqrt_le n
    omega

theorem ceilSqrt_pos {n : Nat} (h : 0 < n) : 0 < ceilSqrt n := by
  have := ceilSqrt_le_sq n
  rcases Nat.eq_zero_or_pos (ceilSqrt n) with h0 | h0
  · rw [h0] at this
    omega
  · exact h0

theorem factorFrom_spec (n : Nat) : ∀ v : Nat, 0 < v →
    ∃ d, factorFrom n v = .ok (d, n / d) ∧ 0 < d ∧ d ≤ v ∧ d ∣ n ∧ ∀ k, k ≤ v → k ∣ n → 0 < k → k ≤ d
  | 0, h => absurd h (Nat.lt_irrefl 0)
  | v + 1, _ => by
    rw [factorFrom]
    by_cases hd : n / (v + 1) * (v + 1) = n
    · rw [if_pos hd]
      exact ⟨v + 1, rfl, Nat.succ_pos v, Nat.le_refl _, ⟨n / (v + 1), by rw [Nat.mul_comm]; exact hd.symm⟩,
        fun k hk _ _ => hk⟩
    · rw [if_neg hd]
      have hn : ¬ (v + 1) ∣ n := fun ⟨q, hq⟩ => hd (by
        rw [hq, Nat.mul_div_cancel_left q (Nat.succ_pos v), Nat.mul_comm])
      have hv : 0 < v := by
        rcases Nat.eq_zero_or_pos v with h0 | h0
        · subst h0
          exact absurd (Nat.one_dvd n) hn
        · exact h0
      obtain ⟨d, h1, h2, h3, h4, h5⟩ := factorFrom_spec n v hv
      refine ⟨d, h1, h2, by omega, h4, fun k hk hkn hk0 => h5 k ?_ hkn hk0⟩
      rcases Nat.lt_or_ge v k with h | h
      · have : k = v + 1 := by omega
        exact absurd (this ▸ hkn) hn
      · exact h

theorem factorNearRoot_spec {n : Nat} (hn : 0 < n) :
    ∃ d, factorNearRoot n = .ok (d, n / d) ∧ 0 < d ∧ d ≤ ceilSqrt n ∧ d ∣ n ∧
      ∀ k, k ≤ ceilSqrt n → k ∣ n → 0 < k → k ≤ d :=
  factorFrom_spec n _ (ceilSqrt_pos hn)

theorem mem_everyNth {n k step : Nat} (hs : 0 < step) (hk : k < n) (x : Nat) :
    x ∈ everyNth n k step ↔ x < n ∧ ∃ i, x = k + i * step := by
  unfold everyNth
  rw [List.mem_map]
  constructor
  · rintro ⟨i, hi, rfl⟩
    rw [List.mem_range] at hi
    refine ⟨?_, i, rfl⟩
    have h1 : i + 1 ≤ (n - k + step - 1) / step := hi
    rw [Nat.le_div_iff_mul_le hs, Nat.add_mul] at h1
    omega
  · rintro ⟨hx, i, rfl⟩
    refine ⟨i, List.mem_range.2 ?_, rfl⟩
    show i + 1 ≤ (n - k + step - 1) / step
    rw [Nat.le_div_iff_mul_le hs, Nat.add_mul]
    omega

theorem everyNth_nodup {n k step : Nat} (hs : 0 < step) : (everyNth n k step).Nodup := by
  unfold everyNth
  refine List.Nodup.map ?_ List.nodup_range
  intro i j h
  have h1 : i * step = j * step := Nat.add_left_cancel h
  exact Nat.eq_of_mul_eq_mul_right hs h1

theorem grid_series_perm {n s : Nat} (hs : 0 < s) :
    ((List.range (min s n)).flatMap fun k => everyNth n k s).Perm (List.range n) := by
  have hmod : ∀ k x, k < s → (∃ i, x = k + i * s) → x % s = k := by
    rintro k x hk ⟨i, rfl⟩
    rw [Nat.add_mul_mod_self_right, Nat.mod_eq_of_lt hk]
  refine (List.perm_ext_iff_of_nodup ?_ List.nodup_range).2 ?_
  · rw [List.nodup_flatMap]
    refine ⟨fun k _ => everyNth_nodup hs, ?_⟩
    refine List.Nodup.pairwise_of_forall_ne (List.nodup_range) ?_
    intro a ha b hb hab x hxa hxb
    rw [List.mem_range] at ha hb
    have ha' : a < n := by omega
    have hb' : b < n := by omega
    have h1 := (mem_everyNth hs ha' x).1 hxa
    have h2 := (mem_everyNth hs hb' x).1 hxb
    exact hab ((hmod a x (by omega) h1.2).symm.trans (hmod b x (by omega) h2.2))
  · intro x
    rw [List.mem_flatMap, List.mem_range]
    constructor
    · rintro ⟨k, hk, hx⟩
      rw [List.mem_range] at hk
      exact ((mem_everyNth hs (by omega) x).1 hx).1
    · intro hx
      have h1 : x % s < s := Nat.mod_lt x hs
      have h2 : x % s ≤ x := Nat.mod_le x s
      refine ⟨x % s, List.mem_range.2 (by omega), (mem_everyNth hs (by omega) x).2 ⟨hx, x / s, ?_⟩⟩
      have := Nat.mod_add_div x s
      rw [Nat.mul_comm] at this
      exact this.symm

end Pynare
