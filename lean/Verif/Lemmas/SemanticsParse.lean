import Verif.Lemmas.Semantics
import Verif.Lemmas.ParserFile
/-! The declarations of a parsed model file carry one of the seven keywords. -/

namespace Pynare

variable {V : Type}

theorem preambleLoop_kinds (pc : PCfg V) (n : Nat) : ∀ (ts : List (Tok V)) r,
    preambleLoop pc n ts = .ok r → ∀ p ∈ r.1.1, p.2 ∈ varTypes := by
  induction n with
  | zero => intro ts r h; simp [preambleLoop] at h
  | succ n ih =>
    intro ts r h
    rw [preambleLoop.eq_def] at h
    simp only at h
    split at h
    · simp at h
    · rename_i k ts'
      split at h
      · simp at h; subst h; simp
      · split at h
        · rename_i hk
          rw [Out.bind_ok_iff] at h
          obtain ⟨d, hd, h⟩ := h
          rw [Out.bind_ok_iff] at h
          obtain ⟨r', hr, h⟩ := h
          simp at h; subst h
          intro p hp
          rcases List.mem_append.mp hp with hp | hp
          · simp only [typeDecl, Out.bind_ok_iff] at hd
            obtain ⟨a, _, b, _, c, _, hz⟩ := hd
            simp at hz; subst hz
            simp at hp
            obtain ⟨x, _, rfl⟩ := hp
            exact hk
          · exact ih _ _ hr p hp
        · simp at h
    · rw [Out.bind_ok_iff] at h
      obtain ⟨d, hd, h⟩ := h
      rw [Out.bind_ok_iff] at h
      obtain ⟨r', hr, h⟩ := h
      simp at h; subst h
      exact fun p hp => ih _ _ hr p hp
    · simp at h

theorem parseModel_kinds (pc : PCfg V) (ts : List (Tok V)) (m : ModelFile V)
    (h : parseModel pc ts = .ok m) : ∀ p ∈ m.decls, p.2 ∈ varTypes := by
  simp only [parseModel, Out.bind_ok_iff] at h
  obtain ⟨p, hp, d, _, a, _, h⟩ := h
  simp at h; subst h
  exact preambleLoop_kinds pc _ _ _ hp

end Pynare
