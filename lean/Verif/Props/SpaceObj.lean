import Verif.Model.SpaceObj
import Verif.Props.Stats
/-!
# C90: models that are not determinate are refused
-/

namespace Pynare

variable {V : Type} [CommRing V]

/-- What a request should give: the conditions are checked, then the arrays are computed. -/
def Request.meant (la : LinAlg V) (lyap : Lyap V) (t : Typer) (s : Space V) (gy gu sigma : Arr V) :
    Request → Except Err (Answer V)
  | .transition => do let AB ← kalmanTransition la t s gy gu; .ok [AB.1, AB.2]
  | .variance => do let X ← stateVar la lyap t s gy gu sigma; .ok [X]

/-- What is computed if nothing is checked. -/
def Request.unchecked (lyap : Lyap V) (t : Typer) (gy gu sigma : Arr V) : Request → Except Err (Answer V)
  | .transition => do let AB ← kalmanArrays t gy gu; .ok [AB.1, AB.2]
  | .variance => do let AB ← kalmanArrays t gy gu; let Q ← sandwich AB.2 sigma; let X ← lyap AB.1 Q; .ok [X]

variable {la : LinAlg V} {lyap : Lyap V} {t : Typer} {gy gu sigma : Arr V}

theorem kalman_split (s : Space V) : kalmanTransition la t s gy gu =
    (s.verify la t >>= fun _ => kalmanArrays t gy gu) := rfl

theorem meant_eq (s : Space V) (r : Request) : r.meant la lyap t s gy gu sigma =
    (s.verify la t >>= fun _ => r.unchecked lyap t gy gu sigma) := by
  cases r
  · simp only [Request.meant, Request.unchecked, kalman_split]
    cases s.verify la t <;> rfl
  · simp only [Request.meant, Request.unchecked, stateVar, kalman_split]
    cases s.verify la t
    · rfl
    · cases kalmanArrays t gy gu
      · rfl
      · rename_i AB
        simp only [bind, Except.bind]
        cases sandwich AB.2 sigma <;> rfl

/-- what is kept is what is computed -/
structure Kept (lyap : Lyap V) (t : Typer) (gy gu sigma : Arr V) (o : SpaceObj V) : Prop where
  kalman : ∀ AB, o.kalman = some AB → kalmanArrays t gy gu = .ok AB
  sigma : ∀ X, o.sigma = some X → Request.variance.unchecked lyap t gy gu sigma = .ok [X]

theorem ask_checked {o : SpaceObj V} (k : Kept lyap t gy gu sigma o) {b : Bool} (hb : o.verified = some b) (r : Request) :
    (o.ask la lyap t gy gu sigma r).2 = r.unchecked lyap t gy gu sigma ∧
    Kept lyap t gy gu sigma (o.ask la lyap t gy gu sigma r).1 ∧
    (o.ask la lyap t gy gu sigma r).1.verified = some b := by
  have hv : ∀ o' : SpaceObj V, o'.verified = some b → o'.verify la t = (o', .ok ()) := by
    intro o' h; unfold SpaceObj.verify; rw [h]
  have hK : ∀ o' : SpaceObj V, Kept lyap t gy gu sigma o' → o'.verified = some b →
      (o'.readKalman la t gy gu).2 = kalmanArrays t gy gu ∧
      Kept lyap t gy gu sigma (o'.readKalman la t gy gu).1 ∧ (o'.readKalman la t gy gu).1.verified = some b := by
    intro o' k' h'
    unfold SpaceObj.readKalman
    cases hk : o'.kalman with
    | some AB => exact ⟨(k'.kalman AB hk).symm, k', h'⟩
    | none =>
      simp only [hv o' h']
      cases hA : kalmanArrays t gy gu with
      | error e => exact ⟨rfl, k', h'⟩
      | ok AB => exact ⟨rfl, ⟨fun AB' h => by rw [← Option.some.inj h]; exact hA, k'.sigma⟩, h'⟩
  cases r with
  | transition =>
    obtain ⟨h1, h2, h3⟩ := hK o k hb
    simp only [SpaceObj.ask, Request.unchecked]
    generalize o.readKalman la t gy gu = p at h1 h2 h3
    obtain ⟨o', v⟩ := p
    cases v with
    | error e =>
      simp only at h1 h2 h3 ⊢
      rw [← h1]
      exact ⟨rfl, h2, h3⟩
    | ok AB =>
      simp only at h1 h2 h3 ⊢
      rw [← h1]
      exact ⟨rfl, h2, h3⟩
  | variance =>
    simp only [SpaceObj.ask, SpaceObj.readSigma]
    cases hs : o.sigma with
    | some X => exact ⟨(k.sigma X hs).symm, k, hb⟩
    | none =>
      simp only [hv o hb]
      obtain ⟨h1, h2, h3⟩ := hK o k hb
      generalize o.readKalman la t gy gu = p at h1 h2 h3
      obtain ⟨o', v⟩ := p
      cases v with
      | error e =>
        simp only at h1 h2 h3 ⊢
        refine ⟨?_, h2, h3⟩
        simp only [Request.unchecked]
        rw [← h1]
        rfl
      | ok AB =>
        simp only at h1 h2 h3 ⊢
        have hu : Request.variance.unchecked lyap t gy gu sigma =
            ((sandwich AB.2 sigma >>= lyap AB.1) >>= fun X => .ok [X]) := by
          simp only [Request.unchecked]
          rw [← h1]
          simp only [bind, Except.bind]
          cases sandwich AB.2 sigma <;> rfl
        cases hX : sandwich AB.2 sigma >>= lyap AB.1 with
        | error e =>
          refine ⟨?_, h2, h3⟩
          rw [hu, hX]; rfl
        | ok X =>
          refine ⟨?_, ⟨h2.kalman, fun X' h => ?_⟩, h3⟩
          · rw [hu, hX]; rfl
          · rw [hu, hX, ← Option.some.inj h]; rfl

theorem askAll_checked (rs : List Request) : ∀ {o : SpaceObj V} {b : Bool}, Kept lyap t gy gu sigma o →
    o.verified = some b → o.askAll la lyap t gy gu sigma rs = rs.map (Request.unchecked lyap t gy gu sigma) := by
  induction rs with
  | nil => intros; rfl
  | cons r rs ih =>
    intro o b k hb
    obtain ⟨h1, h2, h3⟩ := ask_checked k hb r (la := la)
    rw [SpaceObj.askAll, h1, ih h2 h3]
    rfl

theorem ask_fresh (s : Space V) (r : Request) :
    (SpaceObj.ask la lyap t gy gu sigma r { space := s }).2 = r.meant la lyap t s gy gu sigma ∧
    Kept lyap t gy gu sigma (SpaceObj.ask la lyap t gy gu sigma r { space := s }).1 ∧
    ∃ b, (SpaceObj.ask la lyap t gy gu sigma r { space := s }).1.verified = some b := by
  cases hv : s.verify la t with
  | error e =>
    have h1 : SpaceObj.verify la t { space := s } = ({ space := s, verified := some false }, .error e) := by
      simp only [SpaceObj.verify, hv]
    rw [meant_eq, hv]
    cases r
    · simp only [SpaceObj.ask, SpaceObj.readKalman, h1]
      exact ⟨rfl, ⟨nofun, nofun⟩, _, rfl⟩
    · simp only [SpaceObj.ask, SpaceObj.readSigma, h1]
      exact ⟨rfl, ⟨nofun, nofun⟩, _, rfl⟩
  | ok u =>
    have h1 : SpaceObj.verify la t { space := s } = ({ space := s, verified := some true }, .ok ()) := by
      simp only [SpaceObj.verify, hv]
    have h2 : SpaceObj.verify la t { space := s, verified := some true } =
        ({ space := s, verified := some true }, .ok ()) := rfl
    have he : SpaceObj.ask la lyap t gy gu sigma r { space := s } =
        SpaceObj.ask la lyap t gy gu sigma r { space := s, verified := some true } := by
      cases r
      · simp only [SpaceObj.ask, SpaceObj.readKalman, h1, h2]
      · simp only [SpaceObj.ask, SpaceObj.readSigma, h1, h2]
    obtain ⟨a1, a2, a3⟩ := ask_checked (la := la) (lyap := lyap) (t := t) (gy := gy) (gu := gu) (sigma := sigma)
      (o := { space := s, verified := some true }) ⟨nofun, nofun⟩ rfl r
    rw [he, meant_eq, hv]
    exact ⟨a1, a2, _, a3⟩

/-- **C90**, partial: what all requests to a new object give.  The first is answered as meant; a model that
passes the check gets the answers that are meant to all of them, but for one that does not the check is
made only once, and from the second request on the arrays are computed as if it had passed. -/
theorem C90_requests_partial (s : Space V) (r : Request) (rs : List Request) :
    SpaceObj.askAll la lyap t gy gu sigma (r :: rs) { space := s } =
      r.meant la lyap t s gy gu sigma :: rs.map (fun q => match s.verify la t with
        | .ok _ => q.meant la lyap t s gy gu sigma
        | .error _ => q.unchecked lyap t gy gu sigma) := by
  obtain ⟨h1, h2, b, h3⟩ := ask_fresh (la := la) (lyap := lyap) (t := t) (gy := gy) (gu := gu) (sigma := sigma) s r
  rw [SpaceObj.askAll, h1, askAll_checked rs h2 h3]
  congr 1
  refine List.map_congr_left fun q _ => ?_
  rw [meant_eq]
  cases s.verify la t <;> rfl

/-- **C90**, partial: a determinate model always gets the moments of its solution. -/
theorem C90_determinate_partial (s : Space V) (hv : s.verify la t = .ok ()) (rs : List Request) :
    SpaceObj.askAll la lyap t gy gu sigma rs { space := s } = rs.map (Request.meant la lyap t s gy gu sigma) := by
  cases rs with
  | nil => rfl
  | cons r rs => rw [C90_requests_partial, hv]; rfl

/-- **C90**, partial: one that is not is refused at the first request. -/
theorem C90_first_refused_partial (s : Space V) (e : Err) (hv : s.verify la t = .error e) (r : Request) (rs : List Request) :
    (SpaceObj.askAll la lyap t gy gu sigma (r :: rs) { space := s }).head? = some (.error e) := by
  rw [C90_requests_partial, meant_eq, hv]; rfl

/-! ### examples -/

/-- a state space without explosive roots, though there is a forward-looking variable -/
def looseSpace : Space ℚ := ⟨Arr.zeros 0 0, Arr.zeros 0 0, Arr.zeros 0 0,
  ⟨[stab, stab, stab], Arr.zeros 0 0, Arr.zeros 0 0, Arr.zeros 0 0, Arr.eye 1 1 0, Arr.zeros 0 0, Arr.zeros 0 0⟩⟩

/-- **C90 is false.** The variance of the states of an indeterminate model is refused when it is asked for
the first time, and returned when it is asked for again. -/
theorem C90_false : looseSpace.verify stLa stT = .error .identification ∧ ∃ X : Arr ℚ,
    SpaceObj.askAll stLa stLyap stT stGy stGu stSigma [.variance, .variance] { space := looseSpace } =
      [.error .identification, .ok [X]] ∧ X.r = 2 ∧ X.e 0 0 = 25 := by
  have hv : looseSpace.verify stLa stT = .error .identification := by decide +kernel
  obtain ⟨as, h1, h2⟩ := ok_of_check (x := Request.variance.unchecked stLyap stT stGy stGu stSigma)
    (p := fun as => match as with
      | [X] => decide (X.r = 2) && decide (X.e 0 0 = 25)
      | _ => false) (by decide +kernel)
  refine ⟨hv, ?_⟩
  rw [C90_requests_partial, meant_eq, hv]
  simp only [List.map]
  rw [h1]
  match as, h2 with
  | [X], h2 =>
    simp only [Bool.and_eq_true, decide_eq_true_eq] at h2
    exact ⟨X, rfl, h2.1, h2.2⟩

example : stSpace.verify stLa stT = .ok () := by decide +kernel

#print axioms C90_requests_partial
#print axioms C90_determinate_partial
#print axioms C90_first_refused_partial
#print axioms C90_false

end Pynare
