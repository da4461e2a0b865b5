import Verif.Spec.Parser
import Verif.Lemmas.Lexer
/-! Fuel does not matter to the expression parser once it is large enough. -/

namespace Pynare

variable {V : Type}

/-- `b` is a version of `a` with more fuel -/
def Out.Le {α : Type} (a b : Out α) : Prop := a = .hang ∨ a = b

theorem Out.Le.refl {α : Type} (a : Out α) : Out.Le a a := Or.inr rfl

theorem Out.Le.trans {α : Type} {a b c : Out α} (h : Out.Le a b) (h' : Out.Le b c) : Out.Le a c := by
  rcases h with h | h
  · exact Or.inl h
  · subst h; exact h'

theorem Out.Le.bind {α β : Type} {a a' : Out α} {f f' : α → Out β} (h : Out.Le a a')
    (hf : ∀ x, Out.Le (f x) (f' x)) : Out.Le (a >>= f) (a' >>= f') := by
  rcases h with h | h
  · subst h; exact Or.inl rfl
  · subst h
    cases a with
    | ok x => exact hf x
    | err e => exact Or.inr rfl
    | hang => exact Or.inl rfl

theorem parser_mono (pc : PCfg V) (m : Bool) (n : Nat) :
    (∀ ts, Out.Le (pAtom pc m n ts) (pAtom pc m (n + 1) ts)) ∧
    (∀ node ts, Out.Le (pCall pc m n node ts) (pCall pc m (n + 1) node ts)) ∧
    (∀ ts, Out.Le (pExpo pc m n ts) (pExpo pc m (n + 1) ts)) ∧
    (∀ l ts, Out.Le (pExpoLoop pc m n l ts) (pExpoLoop pc m (n + 1) l ts)) ∧
    (∀ ts, Out.Le (pTerm pc m n ts) (pTerm pc m (n + 1) ts)) ∧
    (∀ l ts, Out.Le (pTermLoop pc m n l ts) (pTermLoop pc m (n + 1) l ts)) ∧
    (∀ ts, Out.Le (pExpr pc m n ts) (pExpr pc m (n + 1) ts)) ∧
    (∀ l ts, Out.Le (pExprLoop pc m n l ts) (pExprLoop pc m (n + 1) l ts)) := by
  induction n with
  | zero =>
    refine ⟨?_, ?_, ?_, ?_, ?_, ?_, ?_, ?_⟩ <;> intros <;> exact Or.inl rfl
  | succ n ih =>
    obtain ⟨ha, hc, he, hel, ht, htl, hx, hxl⟩ := ih
    refine ⟨?_, ?_, ?_, ?_, ?_, ?_, ?_, ?_⟩
    · intro ts
      unfold pAtom
      split
      · exact .refl _
      · exact .refl _
      · exact .refl _
      · split
        · exact .bind (.refl _) fun r => .bind (hx r) fun e => .refl _
        · split
          · exact .bind (.refl _) fun r => .bind (ht r) fun e => .refl _
          · exact .refl _
      · exact .refl _
    · intro node ts
      unfold pCall
      split
      · exact .bind (.refl _) fun r => .bind (.refl _) fun r => .bind (hx r) fun e =>
          .bind (.refl _) fun r => hc _ _
      · split
        · exact .refl _
        · exact ha _
    · intro ts
      unfold pExpo
      exact .bind (hc _ _) fun l => hel _ _
    · intro l ts
      unfold pExpoLoop
      split
      · refine .bind (.refl _) fun r => .bind (he r) fun e => ?_
        split
        · exact hel _ _
        · exact .refl _
      · exact .refl _
    · intro ts
      unfold pTerm
      exact .bind (he _) fun l => htl _ _
    · intro l ts
      unfold pTermLoop
      split
      · exact .bind (.refl _) fun r => .bind (he r) fun e => htl _ _
      · exact .refl _
    · intro ts
      unfold pExpr
      exact .bind (ht _) fun l => hxl _ _
    · intro l ts
      unfold pExprLoop
      split
      · exact .bind (.refl _) fun r => .bind (ht r) fun e => hxl _ _
      · exact .refl _

theorem adv_length {ts r : List (Tok V)} (h : adv ts = .ok r) : r.length + 1 = ts.length ∧ r = ts.tail := by
  match ts, h with
  | _ :: _ :: _, h => cases h; exact ⟨rfl, rfl⟩

theorem adv_suffix {ts r : List (Tok V)} (h : adv ts = .ok r) : ∃ t, ts = t :: r ∧ r ≠ [] := by
  match ts, h with
  | t :: u :: us, h => cases h; exact ⟨t, rfl, by simp⟩

theorem eatSym_inv {s : Sym} {ts r : List (Tok V)} (h : eatSym s ts = .ok r) :
    ts = .sym s :: r ∧ r ≠ [] := by
  cases ts with
  | nil => cases h
  | cons t ts =>
    cases t with
    | sym s' =>
      simp only [eatSym] at h
      split at h
      · rename_i e; subst e
        obtain ⟨t, e, hr⟩ := adv_suffix h
        cases e; exact ⟨rfl, hr⟩
      · cases h
    | _ => cases h

theorem eatKw_inv {k : String} {ts r : List (Tok V)} (h : eatKw k ts = .ok r) :
    ts = .kw k :: r ∧ r ≠ [] := by
  cases ts with
  | nil => cases h
  | cons t ts =>
    cases t with
    | kw s' =>
      simp only [eatKw] at h
      split at h
      · rename_i e; subst e
        obtain ⟨t, e, hr⟩ := adv_suffix h
        cases e; exact ⟨rfl, hr⟩
      · cases h
    | _ => cases h

theorem eatId_inv {ts : List (Tok V)} {r : String × List (Tok V)} (h : eatId ts = .ok r) :
    ts = .id r.1 :: r.2 ∧ r.2 ≠ [] := by
  cases ts with
  | nil => cases h
  | cons t ts =>
    cases t with
    | id s' =>
      simp only [eatId] at h
      obtain ⟨a, h1, h2⟩ := Out.bind_ok_iff.mp h
      cases h2
      obtain ⟨t, e, hr⟩ := adv_suffix h1
      cases e; exact ⟨rfl, hr⟩
    | _ => cases h

theorem eatNum_inv {ts : List (Tok V)} {r : V × List (Tok V)} (h : eatNum ts = .ok r) :
    ts = .num r.1 :: r.2 ∧ r.2 ≠ [] := by
  cases ts with
  | nil => cases h
  | cons t ts =>
    cases t with
    | num s' =>
      simp only [eatNum] at h
      obtain ⟨a, h1, h2⟩ := Out.bind_ok_iff.mp h
      cases h2
      obtain ⟨t, e, hr⟩ := adv_suffix h1
      cases e; exact ⟨rfl, hr⟩
    | _ => cases h

theorem headOp_inv {α : Type} {f : Sym → Option α} {ts : List (Tok V)} {o : α}
    (h : headOp f ts = some o) : ∃ s r, ts = .sym s :: r ∧ f s = some o := by
  cases ts with
  | nil => cases h
  | cons t ts =>
    cases t with
    | sym s => exact ⟨s, ts, rfl, h⟩
    | _ => cases h

theorem isSym_inv {s : Sym} {ts : List (Tok V)} (h : isSym s ts = true) : ∃ r, ts = .sym s :: r := by
  cases ts with
  | nil => cases h
  | cons t ts =>
    cases t with
    | sym s' =>
      simp only [isSym, decide_eq_true_eq] at h
      subst h; exact ⟨ts, rfl⟩
    | _ => cases h

theorem isKw_inv {s : String} {ts : List (Tok V)} (h : isKw s ts = true) : ∃ r, ts = .kw s :: r := by
  cases ts with
  | nil => cases h
  | cons t ts =>
    cases t with
    | kw s' =>
      simp only [isKw, decide_eq_true_eq] at h
      subst h; exact ⟨ts, rfl⟩
    | _ => cases h

/-- what a successful period offset consumed -/
theorem periodOffset_inv {pc : PCfg V} {ts : List (Tok V)} {r : Int × List (Tok V)}
    (h : periodOffset pc ts = .ok r) :
    ∃ s d v k, Sym.sign s = some d ∧ pc.trunc v = .ok k ∧
      r.1 = (if d = .pos then (k : Int) else -(k : Int)) ∧
      ts = .sym .lpare :: .sym s :: .num v :: .sym .rpare :: r.2 ∧ r.2 ≠ [] := by
  unfold periodOffset at h
  obtain ⟨t1, h1, h⟩ := Out.bind_ok_iff.mp h
  obtain ⟨e1, _⟩ := eatSym_inv h1
  split at h
  · cases h
  · rename_i d hd
    obtain ⟨s, r', e2, hs⟩ := headOp_inv hd
    obtain ⟨t2, h2, h⟩ := Out.bind_ok_iff.mp h
    obtain ⟨t3, h3, h⟩ := Out.bind_ok_iff.mp h
    obtain ⟨t4, h4, h⟩ := Out.bind_ok_iff.mp h
    obtain ⟨k, h5, h⟩ := Out.bind_ok_iff.mp h
    cases h
    obtain ⟨x, e3, _⟩ := adv_suffix h2
    obtain ⟨e4, _⟩ := eatNum_inv h3
    obtain ⟨e5, hne⟩ := eatSym_inv h4
    have hk : pc.trunc t3.1 = .ok k := by
      cases ht : pc.trunc t3.1 with
      | ok a => rw [ht] at h5; cases h5; rfl
      | error e => rw [ht] at h5; cases h5
    refine ⟨s, d, t3.1, k, hs, hk, rfl, ?_, hne⟩
    rw [e2] at e3
    cases e3
    rw [e1, e2, e4, e5]

theorem maybePeriodVar_inv {pc : PCfg V} {ts : List (Tok V)} {r : Expr V × List (Tok V)}
    (h : maybePeriodVar pc ts = .ok r) :
    r.2 ≠ [] ∧ ((∃ x, r.1 = .var x ∧ ts = .id x :: r.2) ∨
    (∃ x s d v k, Sym.sign s = some d ∧ pc.trunc v = .ok k ∧
      r.1 = .pvar x (if d = .pos then (k : Int) else -(k : Int)) ∧
      ts = .id x :: .sym .lpare :: .sym s :: .num v :: .sym .rpare :: r.2)) := by
  unfold maybePeriodVar at h
  obtain ⟨t1, h1, h⟩ := Out.bind_ok_iff.mp h
  obtain ⟨e1, hne1⟩ := eatId_inv h1
  split at h
  · obtain ⟨o, h2, h⟩ := Out.bind_ok_iff.mp h
    cases h
    obtain ⟨s, d, v, k, hs, hk, ho, e2, hne⟩ := periodOffset_inv h2
    exact ⟨hne, Or.inr ⟨t1.1, s, d, v, k, hs, hk, by rw [ho], by rw [e1, e2]⟩⟩
  · cases h
    exact ⟨hne1, Or.inl ⟨t1.1, rfl, e1⟩⟩

theorem adv_not_hang (ts : List (Tok V)) : adv ts ≠ .hang := by
  match ts with
  | [] => intro h; cases h
  | [_] => intro h; cases h
  | _ :: _ :: _ => intro h; cases h

theorem eatSym_not_hang (s : Sym) (ts : List (Tok V)) : eatSym s ts ≠ .hang := by
  intro h
  cases ts with
  | nil => cases h
  | cons t ts =>
    cases t <;> simp only [eatSym] at h <;> try cases h
    split at h
    · exact adv_not_hang _ h
    · cases h

theorem eatKw_not_hang (s : String) (ts : List (Tok V)) : eatKw s ts ≠ .hang := by
  intro h
  cases ts with
  | nil => cases h
  | cons t ts =>
    cases t <;> simp only [eatKw] at h <;> try cases h
    split at h
    · exact adv_not_hang _ h
    · cases h

theorem eatNum_not_hang (ts : List (Tok V)) : eatNum ts ≠ .hang := by
  intro h
  cases ts with
  | nil => cases h
  | cons t ts =>
    cases t <;> simp only [eatNum] at h <;> try cases h
    rcases Out.bind_hang_iff.mp h with h | ⟨a, _, h⟩
    · exact adv_not_hang _ h
    · cases h

theorem eatId_not_hang (ts : List (Tok V)) : eatId ts ≠ .hang := by
  intro h
  cases ts with
  | nil => cases h
  | cons t ts =>
    cases t <;> simp only [eatId] at h <;> try cases h
    rcases Out.bind_hang_iff.mp h with h | ⟨a, _, h⟩
    · exact adv_not_hang _ h
    · cases h

/-- a chain of steps does not hang when none of them does -/
theorem Out.bind_not_hang {α β : Type} {a : Out α} {f : α → Out β} (h : a ≠ .hang)
    (hf : ∀ x, a = .ok x → f x ≠ .hang) : (a >>= f) ≠ .hang := by
  intro e
  rcases Out.bind_hang_iff.mp e with e | ⟨x, hx, e⟩
  · exact h e
  · exact hf x hx e

theorem Out.ok_not_hang {α : Type} (a : α) : (Out.ok a) ≠ .hang := by intro h; cases h
theorem Out.err_not_hang {α : Type} (e : Err) : (Out.err e : Out α) ≠ .hang := by intro h; cases h
theorem Out.ofExcept_not_hang {α : Type} (x : Except Err α) : Out.ofExcept x ≠ .hang := by
  cases x <;> intro h <;> cases h

theorem maybePeriodVar_not_hang (pc : PCfg V) (ts : List (Tok V)) : maybePeriodVar pc ts ≠ .hang := by
  unfold maybePeriodVar
  refine Out.bind_not_hang (eatId_not_hang _) fun x _ => ?_
  split
  · refine Out.bind_not_hang ?_ fun x _ => Out.ok_not_hang _
    unfold periodOffset
    refine Out.bind_not_hang (eatSym_not_hang _ _) fun x _ => ?_
    split
    · exact Out.err_not_hang _
    · refine Out.bind_not_hang (adv_not_hang _) fun x _ => ?_
      refine Out.bind_not_hang (eatNum_not_hang _) fun x _ => ?_
      refine Out.bind_not_hang (eatSym_not_hang _ _) fun x _ => ?_
      exact Out.bind_not_hang (Out.ofExcept_not_hang _) fun x _ => Out.ok_not_hang _
  · exact Out.ok_not_hang _

theorem eatSym_length {s : Sym} {ts r : List (Tok V)} (h : eatSym s ts = .ok r) :
    r.length + 1 = ts.length := by
  rw [(eatSym_inv h).1]; rfl

theorem parser_length (pc : PCfg V) (m : Bool) (n : Nat) :
    (∀ ts r, pAtom pc m n ts = .ok r → r.2.length < ts.length) ∧
    (∀ node ts r, pCall pc m n node ts = .ok r →
      r.2.length ≤ ts.length ∧ (node = none → r.2.length < ts.length)) ∧
    (∀ ts r, pExpo pc m n ts = .ok r → r.2.length < ts.length) ∧
    (∀ l ts r, pExpoLoop pc m n l ts = .ok r → r.2.length ≤ ts.length) ∧
    (∀ ts r, pTerm pc m n ts = .ok r → r.2.length < ts.length) ∧
    (∀ l ts r, pTermLoop pc m n l ts = .ok r → r.2.length ≤ ts.length) ∧
    (∀ ts r, pExpr pc m n ts = .ok r → r.2.length < ts.length) ∧
    (∀ l ts r, pExprLoop pc m n l ts = .ok r → r.2.length ≤ ts.length) := by
  induction n with
  | zero =>
    refine ⟨?_, ?_, ?_, ?_, ?_, ?_, ?_, ?_⟩ <;> intros <;> rename_i h <;> cases h
  | succ n ih =>
    obtain ⟨ha, hc, he, hel, ht, htl, hx, hxl⟩ := ih
    refine ⟨?_, ?_, ?_, ?_, ?_, ?_, ?_, ?_⟩
    · intro ts r h
      unfold pAtom at h
      split at h
      · cases h
      · split at h
        · rcases (maybePeriodVar_inv h).2 with ⟨x, _, e⟩ | ⟨x, s, d, v, k, _, _, _, e⟩ <;>
            rw [e] <;> simp <;> omega
        · obtain ⟨a, h1, h⟩ := Out.bind_ok_iff.mp h
          cases h
          have := (adv_length h1).1
          simp only; omega
      · obtain ⟨a, h1, h⟩ := Out.bind_ok_iff.mp h
        cases h
        have := (adv_length h1).1
        simp only; omega
      · split at h
        · obtain ⟨a, h1, h⟩ := Out.bind_ok_iff.mp h
          obtain ⟨b, h2, h⟩ := Out.bind_ok_iff.mp h
          obtain ⟨c, h3, h⟩ := Out.bind_ok_iff.mp h
          cases h
          have := (adv_length h1).1
          have := eatSym_length h3
          have := hx _ _ h2
          simp only; omega
        · split at h
          · obtain ⟨a, h1, h⟩ := Out.bind_ok_iff.mp h
            obtain ⟨b, h2, h⟩ := Out.bind_ok_iff.mp h
            cases h
            have := (adv_length h1).1
            have := ht _ _ h2
            simp only; omega
          · cases h
      · cases h
    · intro node ts r h
      unfold pCall at h
      split at h
      · obtain ⟨a, h1, h⟩ := Out.bind_ok_iff.mp h
        obtain ⟨b, h2, h⟩ := Out.bind_ok_iff.mp h
        obtain ⟨c, h3, h⟩ := Out.bind_ok_iff.mp h
        obtain ⟨d, h4, h⟩ := Out.bind_ok_iff.mp h
        have := (adv_length h1).1
        have := eatSym_length h2
        have := eatSym_length h4
        have := hx _ _ h3
        have := (hc _ _ _ h).1
        refine ⟨by omega, fun _ => by omega⟩
      · split at h
        · cases h
          exact ⟨Nat.le_refl _, fun h => by cases h⟩
        · have := ha _ _ h
          exact ⟨by omega, fun _ => this⟩
    · intro ts r h
      unfold pExpo at h
      obtain ⟨a, h1, h⟩ := Out.bind_ok_iff.mp h
      have := (hc _ _ _ h1).2 rfl
      have := hel _ _ _ h
      omega
    · intro l ts r h
      unfold pExpoLoop at h
      split at h
      · obtain ⟨a, h1, h⟩ := Out.bind_ok_iff.mp h
        obtain ⟨b, h2, h⟩ := Out.bind_ok_iff.mp h
        have := (adv_length h1).1
        have := he _ _ h2
        split at h
        · have := hel _ _ _ h
          omega
        · cases h
          simp only; omega
      · cases h
        exact Nat.le_refl _
    · intro ts r h
      unfold pTerm at h
      obtain ⟨a, h1, h⟩ := Out.bind_ok_iff.mp h
      have := he _ _ h1
      have := htl _ _ _ h
      omega
    · intro l ts r h
      unfold pTermLoop at h
      split at h
      · obtain ⟨a, h1, h⟩ := Out.bind_ok_iff.mp h
        obtain ⟨b, h2, h⟩ := Out.bind_ok_iff.mp h
        have := (adv_length h1).1
        have := he _ _ h2
        have := htl _ _ _ h
        omega
      · cases h
        exact Nat.le_refl _
    · intro ts r h
      unfold pExpr at h
      obtain ⟨a, h1, h⟩ := Out.bind_ok_iff.mp h
      have := ht _ _ h1
      have := hxl _ _ _ h
      omega
    · intro l ts r h
      unfold pExprLoop at h
      split at h
      · obtain ⟨a, h1, h⟩ := Out.bind_ok_iff.mp h
        obtain ⟨b, h2, h⟩ := Out.bind_ok_iff.mp h
        have := (adv_length h1).1
        have := ht _ _ h2
        have := hxl _ _ _ h
        omega
      · cases h
        exact Nat.le_refl _

theorem parser_total (pc : PCfg V) (m : Bool) (n : Nat) :
    (∀ ts : List (Tok V), 8 * ts.length + 1 ≤ n → pAtom pc m n ts ≠ .hang) ∧
    (∀ node (ts : List (Tok V)), 8 * ts.length + 2 ≤ n → pCall pc m n node ts ≠ .hang) ∧
    (∀ ts : List (Tok V), 8 * ts.length + 3 ≤ n → pExpo pc m n ts ≠ .hang) ∧
    (∀ l (ts : List (Tok V)), 8 * ts.length + 1 ≤ n → pExpoLoop pc m n l ts ≠ .hang) ∧
    (∀ ts : List (Tok V), 8 * ts.length + 4 ≤ n → pTerm pc m n ts ≠ .hang) ∧
    (∀ l (ts : List (Tok V)), 8 * ts.length + 1 ≤ n → pTermLoop pc m n l ts ≠ .hang) ∧
    (∀ ts : List (Tok V), 8 * ts.length + 5 ≤ n → pExpr pc m n ts ≠ .hang) ∧
    (∀ l (ts : List (Tok V)), 8 * ts.length + 1 ≤ n → pExprLoop pc m n l ts ≠ .hang) := by
  induction n with
  | zero =>
    refine ⟨?_, ?_, ?_, ?_, ?_, ?_, ?_, ?_⟩ <;> intros <;> omega
  | succ n ih =>
    obtain ⟨ha, hc, he, hel, ht, htl, hx, hxl⟩ := ih
    obtain ⟨la, lc, le, lel, lt, ltl, lx, lxl⟩ := parser_length pc m n
    refine ⟨?_, ?_, ?_, ?_, ?_, ?_, ?_, ?_⟩
    · intro ts hn
      unfold pAtom
      split
      · exact Out.err_not_hang _
      · split
        · exact maybePeriodVar_not_hang _ _
        · exact Out.bind_not_hang (adv_not_hang _) fun _ _ => Out.ok_not_hang _
      · exact Out.bind_not_hang (adv_not_hang _) fun _ _ => Out.ok_not_hang _
      · split
        · refine Out.bind_not_hang (adv_not_hang _) fun a h1 => ?_
          have := (adv_length h1).1
          refine Out.bind_not_hang (hx _ (by omega)) fun b h2 => ?_
          exact Out.bind_not_hang (eatSym_not_hang _ _) fun _ _ => Out.ok_not_hang _
        · split
          · refine Out.bind_not_hang (adv_not_hang _) fun a h1 => ?_
            have := (adv_length h1).1
            exact Out.bind_not_hang (ht _ (by omega)) fun b h2 => Out.ok_not_hang _
          · exact Out.err_not_hang _
      · exact Out.err_not_hang _
    · intro node ts hn
      unfold pCall
      split
      · refine Out.bind_not_hang (adv_not_hang _) fun a h1 => ?_
        refine Out.bind_not_hang (eatSym_not_hang _ _) fun b h2 => ?_
        have := (adv_length h1).1
        have := eatSym_length h2
        refine Out.bind_not_hang (hx _ (by omega)) fun c h3 => ?_
        refine Out.bind_not_hang (eatSym_not_hang _ _) fun d h4 => ?_
        have := eatSym_length h4
        have := lx _ _ h3
        exact hc _ _ (by omega)
      · split
        · exact Out.ok_not_hang _
        · exact ha _ (by omega)
    · intro ts hn
      unfold pExpo
      refine Out.bind_not_hang (hc _ _ (by omega)) fun a h1 => ?_
      have := (lc _ _ _ h1).2 rfl
      exact hel _ _ (by omega)
    · intro l ts hn
      unfold pExpoLoop
      split
      · refine Out.bind_not_hang (adv_not_hang _) fun a h1 => ?_
        have := (adv_length h1).1
        refine Out.bind_not_hang (he _ (by omega)) fun b h2 => ?_
        have := le _ _ h2
        split
        · exact hel _ _ (by omega)
        · exact Out.ok_not_hang _
      · exact Out.ok_not_hang _
    · intro ts hn
      unfold pTerm
      refine Out.bind_not_hang (he _ (by omega)) fun a h1 => ?_
      have := le _ _ h1
      exact htl _ _ (by omega)
    · intro l ts hn
      unfold pTermLoop
      split
      · refine Out.bind_not_hang (adv_not_hang _) fun a h1 => ?_
        have := (adv_length h1).1
        refine Out.bind_not_hang (he _ (by omega)) fun b h2 => ?_
        have := le _ _ h2
        exact htl _ _ (by omega)
      · exact Out.ok_not_hang _
    · intro ts hn
      unfold pExpr
      refine Out.bind_not_hang (ht _ (by omega)) fun a h1 => ?_
      have := lt _ _ h1
      exact hxl _ _ (by omega)
    · intro l ts hn
      unfold pExprLoop
      split
      · refine Out.bind_not_hang (adv_not_hang _) fun a h1 => ?_
        have := (adv_length h1).1
        refine Out.bind_not_hang (ht _ (by omega)) fun b h2 => ?_
        have := lt _ _ h2
        exact hxl _ _ (by omega)
      · exact Out.ok_not_hang _

/-- the bound used by the model is large enough -/
theorem expr_not_hang (pc : PCfg V) (m : Bool) (ts : List (Tok V)) :
    pExpr pc m (exprFuel ts) ts ≠ .hang :=
  (parser_total pc m _).2.2.2.2.2.2.1 ts (by unfold exprFuel; omega)

theorem pExpr_mono (pc : PCfg V) (m : Bool) (ts : List (Tok V)) (n k : Nat) :
    Out.Le (pExpr pc m n ts) (pExpr pc m (n + k) ts) := by
  induction k with
  | zero => exact .refl _
  | succ k ih => exact ih.trans ((parser_mono pc m (n + k)).2.2.2.2.2.2.1 ts)

/-- any larger bound gives the same answer -/
theorem pExpr_enough (pc : PCfg V) (m : Bool) (ts : List (Tok V)) {n : Nat} (h : exprFuel ts ≤ n) :
    pExpr pc m n ts = pExpr pc m (exprFuel ts) ts := by
  obtain ⟨k, rfl⟩ := Nat.exists_eq_add_of_le h
  rcases pExpr_mono pc m ts (exprFuel ts) k with h | h
  · exact absurd h (expr_not_hang _ _ _)
  · exact h.symm

end Pynare
