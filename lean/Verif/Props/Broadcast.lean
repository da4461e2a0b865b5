import Verif.Props.Derivs
/-!
# C109: rows of derivatives of other lengths
-/

namespace Pynare

variable {V : Type} [Zero V]

/-- a row that is assigned -/
theorem assignRow_ok {n : Nat} {row row' : List V} (h : assignRow n row = .ok row') :
    row'.length = n ∧ ((row.length = n ∧ row' = row) ∨ ∃ v, row = [v] ∧ row' = List.replicate n v) := by
  unfold assignRow at h
  split at h
  · rename_i hl
    obtain rfl := Except.ok.inj h
    exact ⟨hl, .inl ⟨hl, rfl⟩⟩
  · split at h
    · rename_i v _
      obtain rfl := Except.ok.inj h
      exact ⟨by simp, .inr ⟨v, rfl, rfl⟩⟩
    · cases h

/-- **C109, lengths of gradients.**  Whatever the library returns as the gradient of an equation, its row of the jacobian is
either the gradient, or one number in all columns if the gradient is a single number; gradients of any other length are
refused. -/
theorem C109_lengths (ad : Autograd V) {fs : List (List V → Except Err V)} {p : List V} {J : Arr V}
    (h : jacobianArray ad fs p = .ok J) : J.r = fs.length ∧ J.c = p.length ∧
      ∀ (i : Nat) f, fs[i]? = some f → ∃ g, ad.grad f p = .ok g ∧
        ((g.length = p.length ∧ ∀ k < p.length, some (J.e i k) = g[k]?) ∨ ∃ v, g = [v] ∧ ∀ k < p.length, J.e i k = v) := by
  unfold jacobianArray at h
  obtain ⟨rows, h1, h⟩ := Except.bind_eq_ok h
  obtain rfl := Except.ok.inj h
  obtain ⟨hl, hg⟩ := assignRows_get h1
  rw [List.length_map] at hl
  refine ⟨hl, rfl, fun i f hf => ?_⟩
  obtain ⟨g, row, e1, e2, e3⟩ := hg i (ad.grad f) (by simp [hf])
  refine ⟨g, e1, ?_⟩
  have entry : ∀ k, (rowsArr p.length rows).e i k = (row[k]?).getD 0 := by
    intro k
    simp [rowsArr, e3]
  obtain ⟨-, ⟨hn, rfl⟩ | ⟨v, rfl, rfl⟩⟩ := assignRow_ok e2
  · left
    refine ⟨hn, fun k hk => ?_⟩
    rw [entry, List.getElem?_eq_getElem (by omega)]
    rfl
  · right
    refine ⟨v, rfl, fun k hk => ?_⟩
    rw [entry]
    simp [hk]

/-- a library that returns single numbers -/
example : ∃ J, jacobianArray (⟨fun f p => do let v ← f p; .ok [v], fun _ _ => .ok []⟩ : Autograd Nat)
    [fun p => .ok p.length] [1, 2, 3] = .ok J ∧ J.c = 3 ∧ J.e 0 2 = 3 := ⟨_, rfl, rfl, rfl⟩

#print axioms C109_lengths

end Pynare
