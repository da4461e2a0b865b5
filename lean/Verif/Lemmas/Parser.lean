import Verif.Lemmas.ParserFuel
/-! The expression parser accepts exactly the phrases of the disambiguated grammar. -/

namespace Pynare

variable {V : Type}

def NotPow (r : List (Tok V)) : Prop := isSym .power r = false
def NotMul (r : List (Tok V)) : Prop := headOp Sym.mulOp r = none
def NotAdd (r : List (Tok V)) : Prop := headOp Sym.addOp r = none

theorem NoCallAfterParen.tail {t : Tok V} {ts : List (Tok V)} (h : NoCallAfterParen (t :: ts)) :
    NoCallAfterParen ts := by
  intro pre f post e
  exact h (t :: pre) f post (by rw [e]; rfl)

theorem NoCallAfterParen.append {us ts : List (Tok V)} (h : NoCallAfterParen (us ++ ts)) :
    NoCallAfterParen ts := by
  induction us with
  | nil => exact h
  | cons u us ih => exact ih (NoCallAfterParen.tail h)

theorem NoCallAfterParen.adv {ts r : List (Tok V)} (h : NoCallAfterParen ts) (ha : adv ts = .ok r) :
    NoCallAfterParen r := by
  obtain ⟨t, e, _⟩ := adv_suffix ha
  rw [e] at h
  exact h.tail

theorem pCall_some {pc : PCfg V} {m : Bool} {n : Nat} {e : Expr V} {ts : List (Tok V)}
    {r : Expr V × List (Tok V)} (h : pCall pc m n (some e) ts = .ok r)
    (hn : ∀ f us, ts ≠ .func f :: us) : r = (e, ts) := by
  cases n with
  | zero => cases h
  | succ n =>
    unfold pCall at h
    split at h
    · exact absurd rfl (hn _ _)
    · cases h; rfl

theorem pExpoLoop_stop {pc : PCfg V} {m : Bool} {n : Nat} {e : Expr V} {ts : List (Tok V)}
    {r : Expr V × List (Tok V)} (h : pExpoLoop pc m n e ts = .ok r)
    (hn : NotPow ts) : r = (e, ts) := by
  cases n with
  | zero => cases h
  | succ n =>
    unfold pExpoLoop at h
    rw [if_neg (by rw [hn]; exact Bool.false_ne_true)] at h
    cases h; rfl

theorem parser_sound (pc : PCfg V) (m : Bool) (n : Nat) :
    (∀ ts r, NoCallAfterParen ts → pAtom pc m n ts = .ok r → r.2 ≠ [] ∧
      ∃ us o, ts = us ++ r.2 ∧ Gram False m pc o .atom us r.1 ∧
        (o = true → NotPow r.2 ∧ NotMul r.2)) ∧
    (∀ ts r, NoCallAfterParen ts → pCall pc m n none ts = .ok r → r.2 ≠ [] ∧
      ∃ us o, ts = us ++ r.2 ∧ Gram False m pc o .call us r.1 ∧
        (o = true → NotPow r.2 ∧ NotMul r.2)) ∧
    (∀ ts r, NoCallAfterParen ts → pExpo pc m n ts = .ok r → r.2 ≠ [] ∧
      ∃ us o, ts = us ++ r.2 ∧ Gram False m pc o .expo us r.1 ∧
        NotPow r.2 ∧ (o = true → NotMul r.2)) ∧
    (∀ l ts r, NoCallAfterParen ts → pExpoLoop pc m n l ts = .ok r →
      (ts ≠ [] → r.2 ≠ []) ∧
      ∀ us0 o0, Gram False m pc o0 .call us0 l → (o0 = true → NotPow ts ∧ NotMul ts) →
      ∃ us o, ts = us ++ r.2 ∧ Gram False m pc o .expo (us0 ++ us) r.1 ∧
        NotPow r.2 ∧ (o = true → NotMul r.2)) ∧
    (∀ ts r, NoCallAfterParen ts → pTerm pc m n ts = .ok r → r.2 ≠ [] ∧
      ∃ us o, ts = us ++ r.2 ∧ Gram False m pc o .term us r.1 ∧ NotPow r.2 ∧ NotMul r.2) ∧
    (∀ l ts r, NoCallAfterParen ts → pTermLoop pc m n l ts = .ok r →
      (ts ≠ [] → r.2 ≠ []) ∧
      ∀ us0 o0, Gram False m pc o0 .term us0 l → NotPow ts → (o0 = true → NotMul ts) →
      ∃ us o, ts = us ++ r.2 ∧ Gram False m pc o .term (us0 ++ us) r.1 ∧
        NotPow r.2 ∧ NotMul r.2) ∧
    (∀ ts r, NoCallAfterParen ts → pExpr pc m n ts = .ok r → r.2 ≠ [] ∧
      ∃ us o, ts = us ++ r.2 ∧ Gram False m pc o .expr us r.1 ∧
        NotPow r.2 ∧ NotMul r.2 ∧ NotAdd r.2) ∧
    (∀ l ts r, NoCallAfterParen ts → pExprLoop pc m n l ts = .ok r →
      (ts ≠ [] → r.2 ≠ []) ∧
      ∀ us0 o0, Gram False m pc o0 .expr us0 l → NotPow ts → NotMul ts →
      ∃ us o, ts = us ++ r.2 ∧ Gram False m pc o .expr (us0 ++ us) r.1 ∧
        NotPow r.2 ∧ NotMul r.2 ∧ NotAdd r.2) := by
  induction n with
  | zero =>
    refine ⟨?_, ?_, ?_, ?_, ?_, ?_, ?_, ?_⟩ <;> intros <;> rename_i h <;> cases h
  | succ n ih =>
    obtain ⟨ha, hc, he, hel, ht, htl, hx, hxl⟩ := ih
    refine ⟨?_, ?_, ?_, ?_, ?_, ?_, ?_, ?_⟩
    · intro ts r hN h
      unfold pAtom at h
      split at h
      · cases h
      · split at h
        · rename_i hm
          have hp := maybePeriodVar_inv h
          refine ⟨hp.1, ?_⟩
          rcases hp.2 with ⟨x, e1, e2⟩ | ⟨x, s, d, v, k, hs, hk, e1, e2⟩
          · refine ⟨[_], false, e2, ?_, fun h => by cases h⟩
            rw [e1]; exact .id
          · refine ⟨[_, _, _, _, _], false, e2, ?_, fun h => by cases h⟩
            rw [e1]; exact .pid hm hs hk
        · obtain ⟨a, h1, h⟩ := Out.bind_ok_iff.mp h
          cases h
          obtain ⟨t, e, hne⟩ := adv_suffix h1
          cases e
          exact ⟨hne, [_], _, rfl, .id, fun h => by cases h⟩
      · obtain ⟨a, h1, h⟩ := Out.bind_ok_iff.mp h
        cases h
        obtain ⟨t, e, hne⟩ := adv_suffix h1
        cases e
        exact ⟨hne, [_], _, rfl, .num, fun h => by cases h⟩
      · split at h
        · rename_i hs
          subst hs
          obtain ⟨a, h1, h⟩ := Out.bind_ok_iff.mp h
          obtain ⟨b, h2, h⟩ := Out.bind_ok_iff.mp h
          obtain ⟨c, h3, h⟩ := Out.bind_ok_iff.mp h
          cases h
          obtain ⟨_, us, o, e1, g, _⟩ := hx _ _ (hN.adv h1) h2
          obtain ⟨t, e, _⟩ := adv_suffix h1
          cases e
          obtain ⟨e3, hne⟩ := eatSym_inv h3
          refine ⟨hne, _, _, ?_, .paren g, fun h => by cases h⟩
          rw [e1, e3]; simp
        · split at h
          · rename_i u hu
            obtain ⟨a, h1, h⟩ := Out.bind_ok_iff.mp h
            obtain ⟨b, h2, h⟩ := Out.bind_ok_iff.mp h
            cases h
            obtain ⟨hne, us, o, e1, g, f1, f2⟩ := ht _ _ (hN.adv h1) h2
            obtain ⟨t, e, _⟩ := adv_suffix h1
            cases e
            refine ⟨hne, _, _, ?_, .sign hu g, fun _ => ⟨f1, f2⟩⟩
            rw [e1]; rfl
          · cases h
      · cases h
    · intro ts r hN h
      unfold pCall at h
      split at h
      · obtain ⟨a, h1, h⟩ := Out.bind_ok_iff.mp h
        obtain ⟨b, h2, h⟩ := Out.bind_ok_iff.mp h
        obtain ⟨c, h3, h⟩ := Out.bind_ok_iff.mp h
        obtain ⟨d, h4, hz⟩ := Out.bind_ok_iff.mp h
        have hNa := hN.adv h1
        obtain ⟨e2, _⟩ := eatSym_inv h2
        have hNb : NoCallAfterParen b := by rw [e2] at hNa; exact hNa.tail
        obtain ⟨_, us, o, e3, g, _⟩ := hx _ _ hNb h3
        obtain ⟨e4, hne⟩ := eatSym_inv h4
        obtain ⟨t, e1, _⟩ := adv_suffix h1
        cases e1
        have hNc : NoCallAfterParen (.sym .rpare :: d) := by
          rw [e3] at hNb
          rw [← e4]; exact hNb.append
        have hr := pCall_some hz (by
          intro f us e
          exact hNc [] f us (by rw [e]; rfl))
        subst hr
        refine ⟨hne, _, _, ?_, .func g, fun h => by cases h⟩
        rw [e2, e3, e4]; simp
      · obtain ⟨hne, us, o, e, g, f⟩ := ha _ _ hN h
        exact ⟨hne, us, o, e, .atom g, f⟩
    · intro ts r hN h
      unfold pExpo at h
      obtain ⟨a, h1, h⟩ := Out.bind_ok_iff.mp h
      obtain ⟨hne, us0, o0, e1, g1, f1⟩ := hc _ _ hN h1
      have hNa : NoCallAfterParen a.2 := by rw [e1] at hN; exact hN.append
      obtain ⟨hne', h⟩ := hel _ _ _ hNa h
      obtain ⟨us, o, e2, g2, f2⟩ := h us0 o0 g1 f1
      exact ⟨hne' hne, us0 ++ us, o, by rw [e1, e2, List.append_assoc], g2, f2⟩
    · intro l ts r hN h
      unfold pExpoLoop at h
      split at h
      · rename_i hp
        obtain ⟨a, h1, h⟩ := Out.bind_ok_iff.mp h
        obtain ⟨b, h2, hz⟩ := Out.bind_ok_iff.mp h
        obtain ⟨ts', ep⟩ := isSym_inv hp
        subst ep
        obtain ⟨t, e, _⟩ := adv_suffix h1
        cases e
        obtain ⟨hne, us1, o1, e1, g1, f1, f2⟩ := he _ _ (hN.adv h1) h2
        have hr : r = (.bin .pow l b.1, b.2) := by
          split at hz
          · exact pExpoLoop_stop hz f1
          · cases hz; rfl
        subst hr
        refine ⟨fun _ => hne, ?_⟩
        intro us0 o0 g0 f0
        have ho : o0 = false := by
          cases o0 with
          | false => rfl
          | true => exact absurd (f0 rfl).1 (by unfold NotPow; rw [hp]; simp)
        refine ⟨_, o1, ?_, .pow (Or.inr ho) g0 g1, f1, f2⟩
        rw [e1]; rfl
      · rename_i hp
        cases h
        refine ⟨fun h => h, ?_⟩
        intro us0 o0 g0 f0
        refine ⟨[], o0, rfl, by rw [List.append_nil]; exact .call g0, ?_, fun h => (f0 h).2⟩
        exact Bool.eq_false_iff.mpr hp
    · intro ts r hN h
      unfold pTerm at h
      obtain ⟨a, h1, h⟩ := Out.bind_ok_iff.mp h
      obtain ⟨hne, us0, o0, e1, g1, f1, f1'⟩ := he _ _ hN h1
      have hNa : NoCallAfterParen a.2 := by rw [e1] at hN; exact hN.append
      obtain ⟨hne', h⟩ := htl _ _ _ hNa h
      obtain ⟨us, o, e2, g2, f2⟩ := h us0 o0 (.expo g1) f1 f1'
      exact ⟨hne' hne, us0 ++ us, o, by rw [e1, e2, List.append_assoc], g2, f2⟩
    · intro l ts r hN h
      unfold pTermLoop at h
      split at h
      · rename_i b hp
        obtain ⟨a, h1, h⟩ := Out.bind_ok_iff.mp h
        obtain ⟨c, h2, hz⟩ := Out.bind_ok_iff.mp h
        obtain ⟨s, ts', ep, hs⟩ := headOp_inv hp
        subst ep
        obtain ⟨t, e, _⟩ := adv_suffix h1
        cases e
        have hNa := hN.adv h1
        obtain ⟨hne, us1, o1, e1, g1, f1, f2⟩ := he _ _ hNa h2
        have hNc : NoCallAfterParen c.2 := by rw [e1] at hNa; exact hNa.append
        obtain ⟨hne', h⟩ := htl _ _ _ hNc hz
        refine ⟨fun _ => hne' hne, ?_⟩
        intro us0 o0 g0 _ f0
        have ho : o0 = false := by
          cases o0 with
          | false => rfl
          | true => exact absurd (f0 rfl) (by unfold NotMul; rw [hp]; simp)
        obtain ⟨us, o, e3, g3, f3⟩ := h _ _ (.mul (Or.inr ho) hs g0 g1) f1 f2
        refine ⟨.sym s :: us1 ++ us, o, ?_, ?_, f3⟩
        · rw [e1, e3]; simp
        · simpa using g3
      · rename_i hp
        cases h
        refine ⟨fun h => h, ?_⟩
        intro us0 o0 g0 f0 _
        exact ⟨[], o0, rfl, by rw [List.append_nil]; exact g0, f0, hp⟩
    · intro ts r hN h
      unfold pExpr at h
      obtain ⟨a, h1, h⟩ := Out.bind_ok_iff.mp h
      obtain ⟨hne, us0, o0, e1, g1, f1, f1'⟩ := ht _ _ hN h1
      have hNa : NoCallAfterParen a.2 := by rw [e1] at hN; exact hN.append
      obtain ⟨hne', h⟩ := hxl _ _ _ hNa h
      obtain ⟨us, o, e2, g2, f2⟩ := h us0 o0 (.term g1) f1 f1'
      exact ⟨hne' hne, us0 ++ us, o, by rw [e1, e2, List.append_assoc], g2, f2⟩
    · intro l ts r hN h
      unfold pExprLoop at h
      split at h
      · rename_i b hp
        obtain ⟨a, h1, h⟩ := Out.bind_ok_iff.mp h
        obtain ⟨c, h2, hz⟩ := Out.bind_ok_iff.mp h
        obtain ⟨s, ts', ep, hs⟩ := headOp_inv hp
        subst ep
        obtain ⟨t, e, _⟩ := adv_suffix h1
        cases e
        have hNa := hN.adv h1
        obtain ⟨hne, us1, o1, e1, g1, f1, f2⟩ := ht _ _ hNa h2
        have hNc : NoCallAfterParen c.2 := by rw [e1] at hNa; exact hNa.append
        obtain ⟨hne', h⟩ := hxl _ _ _ hNc hz
        refine ⟨fun _ => hne' hne, ?_⟩
        intro us0 o0 g0 _ _
        obtain ⟨us, o, e3, g3, f3⟩ := h _ _ (.add hs g0 g1) f1 f2
        refine ⟨.sym s :: us1 ++ us, o, ?_, ?_, f3⟩
        · rw [e1, e3]; simp
        · simpa using g3
      · rename_i hp
        cases h
        refine ⟨fun h => h, ?_⟩
        intro us0 o0 g0 f0 f1
        exact ⟨[], o0, rfl, by rw [List.append_nil]; exact g0, f0, f1, hp⟩

/-! ### Completeness -/

/-- the answer is `out` for all large enough bounds -/
def Ev {α : Type} (f : Nat → Out α) (out : Out α) : Prop := ∃ N, ∀ n, N ≤ n → f n = out

theorem Ev.const {α : Type} (out : Out α) : Ev (fun _ => out) out := ⟨0, fun _ _ => rfl⟩

theorem Ev.succ {α : Type} {f : Nat → Out α} {out : Out α} (h : Ev (fun n => f (n + 1)) out) :
    Ev f out := by
  obtain ⟨N, h⟩ := h
  refine ⟨N + 1, fun n hn => ?_⟩
  obtain ⟨k, rfl⟩ : ∃ k, n = k + 1 := ⟨n - 1, by omega⟩
  exact h k (by omega)

theorem Ev.bind {α β : Type} {a : Nat → Out α} {x : α} {f : Nat → α → Out β} {out : Out β}
    (h : Ev a (.ok x)) (h' : Ev (fun n => f n x) out) : Ev (fun n => a n >>= f n) out := by
  obtain ⟨N, h⟩ := h
  obtain ⟨M, h'⟩ := h'
  refine ⟨N + M, fun n hn => ?_⟩
  have := h n (by omega)
  have := h' n (by omega)
  simp only [*, Out.ok_bind]

theorem adv_cons (t : Tok V) {r : List (Tok V)} (h : r ≠ []) : adv (t :: r) = .ok r := by
  cases r with
  | nil => exact absurd rfl h
  | cons u us => rfl

/-- what may follow a phrase: something, but no function and (in equations) no parenthesis -/
structure Follow (m : Bool) (rest : List (Tok V)) : Prop where
  ne : rest ≠ []
  func : ∀ f us, rest ≠ .func f :: us
  lpare : m = true → isSym .lpare rest = false

theorem follow_sym (m : Bool) {s : Sym} (hs : s ≠ .lpare) (us : List (Tok V)) :
    Follow m (.sym s :: us) where
  ne := by simp
  func := by intro f us h; cases h
  lpare := by intro _; simp [isSym, hs]

def Complete (pc : PCfg V) (m o : Bool) (lvl : Lvl) (us : List (Tok V)) (e : Expr V) : Prop :=
  ∀ rest, Follow m rest →
    match lvl with
    | .atom => (o = true → NotPow rest ∧ NotMul rest) →
        Ev (fun n => pAtom pc m n (us ++ rest)) (.ok (e, rest))
    | .call => (o = true → NotPow rest ∧ NotMul rest) →
        Ev (fun n => pCall pc m n none (us ++ rest)) (.ok (e, rest))
    | .expo => NotPow rest → (o = true → NotMul rest) →
        Ev (fun n => pExpo pc m n (us ++ rest)) (.ok (e, rest))
    | .term => NotPow rest → (o = true → NotMul rest) →
        ∀ out, Ev (fun n => pTermLoop pc m n e rest) out →
          Ev (fun n => pTerm pc m n (us ++ rest)) out
    | .expr => NotPow rest → NotMul rest →
        ∀ out, Ev (fun n => pExprLoop pc m n e rest) out →
          Ev (fun n => pExpr pc m n (us ++ rest)) out

theorem ev_termLoop_stop (pc : PCfg V) (m : Bool) (e : Expr V) {rest : List (Tok V)}
    (h : NotMul rest) : Ev (fun n => pTermLoop pc m n e rest) (.ok (e, rest)) := by
  refine Ev.succ ?_
  refine ⟨0, fun n _ => ?_⟩
  simp only
  unfold pTermLoop
  rw [h]

theorem ev_exprLoop_stop (pc : PCfg V) (m : Bool) (e : Expr V) {rest : List (Tok V)}
    (h : NotAdd rest) : Ev (fun n => pExprLoop pc m n e rest) (.ok (e, rest)) := by
  refine Ev.succ ?_
  refine ⟨0, fun n _ => ?_⟩
  simp only
  unfold pExprLoop
  rw [h]

theorem ev_expoLoop_stop (pc : PCfg V) (m : Bool) (e : Expr V) {rest : List (Tok V)}
    (h : NotPow rest) : Ev (fun n => pExpoLoop pc m n e rest) (.ok (e, rest)) := by
  refine Ev.succ ?_
  refine ⟨0, fun n _ => ?_⟩
  simp only
  unfold pExpoLoop
  rw [if_neg (by rw [h]; simp)]

theorem eatSym_self (s : Sym) {r : List (Tok V)} (h : r ≠ []) : eatSym s (.sym s :: r) = .ok r := by
  simp only [eatSym, if_true]
  exact adv_cons _ h

theorem mulOp_ne {s : Sym} {b : BinOp} (h : Sym.mulOp s = some b) : s ≠ .lpare ∧ s ≠ .power := by
  cases s <;> simp [Sym.mulOp] at h ⊢
theorem addOp_ne {s : Sym} {b : BinOp} (h : Sym.addOp s = some b) :
    s ≠ .lpare ∧ s ≠ .power ∧ Sym.mulOp s = none := by
  cases s <;> simp [Sym.addOp, Sym.mulOp] at h ⊢
theorem sign_ne {s : Sym} {b : UnOp} (h : Sym.sign s = some b) : s ≠ .lpare := by
  cases s <;> first | (intro e; cases e; done) | cases h

theorem gram_ne {a : Prop} {pc : PCfg V} {m o : Bool} {lvl : Lvl} {us : List (Tok V)} {e : Expr V}
    (h : Gram a m pc o lvl us e) : us ≠ [] := by
  induction h <;> simp_all

theorem gram_head {a : Prop} {pc : PCfg V} {m o : Bool} {us : List (Tok V)} {e : Expr V} {lvl : Lvl}
    (h : Gram a m pc o lvl us e) : lvl = .atom → ∀ f ts, us ≠ .func f :: ts := by
  intro hl f ts
  cases h <;> first | (simp; done) | cases hl

theorem parser_complete {pc : PCfg V} {m o : Bool} {lvl : Lvl} {us : List (Tok V)} {e : Expr V}
    (h : Gram False m pc o lvl us e) : Complete pc m o lvl us e := by
  induction h with
  | @id x =>
    intro rest hf _
    refine Ev.succ ⟨0, fun n _ => ?_⟩
    simp only [List.cons_append, List.nil_append]
    unfold pAtom
    cases m with
    | false => simp [adv_cons _ hf.ne]
    | true => simp [maybePeriodVar, eatId, adv_cons _ hf.ne, hf.lpare rfl]
  | @pid x s d v k hm hs hk =>
    intro rest hf _
    refine Ev.succ ⟨0, fun n _ => ?_⟩
    simp only [List.cons_append, List.nil_append]
    unfold pAtom
    simp [hm, maybePeriodVar, eatId, adv_cons, isSym, periodOffset, eatSym, headOp, hs, eatNum,
      adv_cons _ hf.ne, hk, Out.ofExcept]
  | num =>
    intro rest hf _
    refine Ev.succ ⟨0, fun n _ => ?_⟩
    simp only [List.cons_append, List.nil_append]
    unfold pAtom
    simp [adv_cons _ hf.ne]
  | @paren o ts e g ih =>
    intro rest hf _
    refine Ev.succ ?_
    have h1 := ih (.sym .rpare :: rest) (follow_sym m (by intro h; cases h) rest) rfl rfl _
      (ev_exprLoop_stop pc m e rfl)
    have h2 : ∀ n, pAtom pc m (n + 1) ((.sym .lpare :: ts ++ [.sym .rpare]) ++ rest) =
        (pExpr pc m n (ts ++ .sym .rpare :: rest) >>= fun e => do
          let r' ← eatSym .rpare e.2
          .ok (e.1, r')) := by
      intro n
      simp only [List.cons_append, List.append_assoc, List.nil_append]
      unfold pAtom
      simp [adv_cons]
    simp only [h2]
    refine Ev.bind h1 ⟨0, fun n _ => ?_⟩
    simp only
    rw [eatSym_self _ hf.ne]
    rfl
  | @sign o s u ts e hs g ih =>
    intro rest hf ho
    obtain ⟨n1, n2⟩ := ho rfl
    refine Ev.succ ?_
    have h1 := ih rest hf n1 (fun _ => n2) _ (ev_termLoop_stop pc m e n2)
    have h2 : ∀ n, pAtom pc m (n + 1) ((.sym s :: ts) ++ rest) =
        (pTerm pc m n (ts ++ rest) >>= fun e => .ok (.un u e.1, e.2)) := by
      intro n
      simp only [List.cons_append]
      unfold pAtom
      simp [adv_cons, hf.ne, sign_ne hs, hs]
    simp only [h2]
    exact Ev.bind h1 (Ev.const _)
  | @atom o ts e g ih =>
    intro rest hf ho
    refine Ev.succ ?_
    have h2 : ∀ n, pCall pc m (n + 1) none (ts ++ rest) = pAtom pc m n (ts ++ rest) := by
      intro n
      have h3 := gram_head g rfl
      have h4 := gram_ne g
      cases ts with
      | nil => exact absurd rfl h4
      | cons t ts =>
        simp only [List.cons_append]
        unfold pCall
        cases t <;> first | rfl | exact absurd rfl (h3 _ _)
    simp only [h2]
    exact ih rest hf ho
  | @func o f ts e g ih =>
    intro rest hf _
    refine Ev.succ ?_
    have h1 := ih (.sym .rpare :: rest) (follow_sym m (by intro h; cases h) rest) rfl rfl _
      (ev_exprLoop_stop pc m e rfl)
    have h2 : ∀ n, pCall pc m (n + 1) none ((.func f :: .sym .lpare :: ts ++ [.sym .rpare]) ++ rest) =
        (pExpr pc m n (ts ++ .sym .rpare :: rest) >>= fun e => do
          let r' ← eatSym .rpare e.2
          pCall pc m n (some (.fn f e.1)) r') := by
      intro n
      simp only [List.cons_append, List.append_assoc, List.nil_append]
      conv => lhs; unfold pCall
      simp only [adv_cons _ (List.cons_ne_nil _ _), Out.ok_bind]
      rw [eatSym_self _ (by simp), Out.ok_bind]
    simp only [h2]
    refine Ev.bind h1 ?_
    simp only [eatSym_self _ hf.ne, Out.ok_bind]
    refine Ev.succ ⟨0, fun n _ => ?_⟩
    simp only
    unfold pCall
    have := hf.func
    cases rest with
    | nil => exact absurd rfl hf.ne
    | cons t us => cases t <;> first | rfl | exact absurd rfl (this _ _)
  | @call o ts e g ih =>
    intro rest hf hp ho
    refine Ev.succ ?_
    have h2 : ∀ n, pExpo pc m (n + 1) (ts ++ rest) =
        (pCall pc m n none (ts ++ rest) >>= fun l => pExpoLoop pc m n l.1 l.2) := by
      intro n; conv => lhs; unfold pExpo
    simp only [h2]
    exact Ev.bind (ih rest hf (fun h => ⟨hp, ho h⟩)) (ev_expoLoop_stop _ _ _ hp)
  | @pow o o' ts us l r ho g1 g2 ih1 ih2 =>
    intro rest hf hp hm
    refine Ev.succ ?_
    have ho : o = false := by rcases ho with h | h; exact h.elim; exact h
    subst ho
    have h2 : ∀ n, pExpo pc m (n + 1) ((ts ++ .sym .power :: us) ++ rest) =
        (pCall pc m n none (ts ++ .sym .power :: (us ++ rest)) >>= fun l => pExpoLoop pc m n l.1 l.2) := by
      intro n; conv => lhs; unfold pExpo
      simp
    simp only [h2]
    refine Ev.bind (ih1 (.sym .power :: (us ++ rest)) (follow_sym m (by intro h; cases h) _)
      (fun h => by cases h)) ?_
    refine Ev.succ ?_
    have h3 : ∀ n, pExpoLoop pc m (n + 1) l (.sym .power :: (us ++ rest)) =
        (pExpo pc m n (us ++ rest) >>= fun e =>
          if m then pExpoLoop pc m n (.bin .pow l e.1) e.2 else .ok (.bin .pow l e.1, e.2)) := by
      intro n; conv => lhs; unfold pExpoLoop
      simp [isSym, adv_cons, hf.ne]
    simp only [h3]
    refine Ev.bind (ih2 rest hf hp hm) ?_
    cases m with
    | false => exact Ev.const _
    | true => exact ev_expoLoop_stop _ _ _ hp
  | @expo o ts e g ih =>
    intro rest hf hp hm out hout
    refine Ev.succ ?_
    have h2 : ∀ n, pTerm pc m (n + 1) (ts ++ rest) =
        (pExpo pc m n (ts ++ rest) >>= fun l => pTermLoop pc m n l.1 l.2) := by
      intro n; conv => lhs; unfold pTerm
    simp only [h2]
    exact Ev.bind (ih rest hf hp hm) hout
  | @mul o o' s b ts us l r ho hb g1 g2 ih1 ih2 =>
    intro rest hf hp hm out hout
    have ho : o = false := by rcases ho with h | h; exact h.elim; exact h
    subst ho
    have hs := mulOp_ne hb
    rw [List.append_assoc]
    refine ih1 (.sym s :: us ++ rest) (follow_sym m hs.1 _) (by simp [NotPow, isSym, hs.2])
      (fun h => by cases h) out ?_
    refine Ev.succ ?_
    have h3 : ∀ n, pTermLoop pc m (n + 1) l (.sym s :: us ++ rest) =
        (pExpo pc m n (us ++ rest) >>= fun e => pTermLoop pc m n (.bin b l e.1) e.2) := by
      intro n; conv => lhs; unfold pTermLoop
      simp [headOp, hb, adv_cons, hf.ne]
    simp only [h3]
    exact Ev.bind (ih2 rest hf hp hm) hout
  | @term o ts e g ih =>
    intro rest hf hp hm out hout
    refine Ev.succ ?_
    have h2 : ∀ n, pExpr pc m (n + 1) (ts ++ rest) =
        (pTerm pc m n (ts ++ rest) >>= fun l => pExprLoop pc m n l.1 l.2) := by
      intro n; conv => lhs; unfold pExpr
    simp only [h2]
    exact Ev.bind (ih rest hf hp (fun _ => hm) _ (ev_termLoop_stop _ _ _ hm)) hout
  | @add o o' s b ts us l r hb g1 g2 ih1 ih2 =>
    intro rest hf hp hm out hout
    have hs := addOp_ne hb
    rw [List.append_assoc]
    refine ih1 (.sym s :: us ++ rest) (follow_sym m hs.1 _) (by simp [NotPow, isSym, hs.2.1])
      (by simp [NotMul, headOp, hs.2.2]) out ?_
    refine Ev.succ ?_
    have h3 : ∀ n, pExprLoop pc m (n + 1) l (.sym s :: us ++ rest) =
        (pTerm pc m n (us ++ rest) >>= fun e => pExprLoop pc m n (.bin b l e.1) e.2) := by
      intro n; conv => lhs; unfold pExprLoop
      simp [headOp, hb, adv_cons, hf.ne]
    simp only [h3]
    exact Ev.bind (ih2 rest hf hp (fun _ => hm) _ (ev_termLoop_stop _ _ _ hm)) hout

theorem Stops.follow {m : Bool} {rest : List (Tok V)} (h : Stops m rest) :
    Follow m rest ∧ NotPow rest ∧ NotMul rest ∧ NotAdd rest := by
  obtain ⟨t, ts, rfl, hf, hl, hs⟩ := h
  refine ⟨⟨by simp, ?_, ?_⟩, ?_, ?_, ?_⟩
  · intro f us e
    cases e
    exact hf f rfl
  · intro hm
    cases t with
    | sym s =>
      simp only [isSym, decide_eq_false_iff_not]
      intro e; subst e; exact hl hm rfl
    | _ => rfl
  · cases t with
    | sym s =>
      simp only [NotPow, isSym, decide_eq_false_iff_not]
      intro e; subst e; exact hs _ (by decide) rfl
    | _ => rfl
  · cases t with
    | sym s =>
      cases s <;> first | rfl | exact absurd rfl (hs _ (by decide))
    | _ => rfl
  · cases t with
    | sym s =>
      cases s <;> first | rfl | exact absurd rfl (hs _ (by decide))
    | _ => rfl

/-- the parser reads a phrase of the grammar up to a token that cannot continue it -/
theorem pExpr_complete {pc : PCfg V} {m : Bool} {us rest : List (Tok V)} {e : Expr V}
    (h : Derives m pc us e) (hs : Stops m rest) :
    pExpr pc m (exprFuel (us ++ rest)) (us ++ rest) = .ok (e, rest) := by
  obtain ⟨o, g⟩ := h
  obtain ⟨hf, hp, hm, ha⟩ := hs.follow
  obtain ⟨N, hN⟩ := parser_complete g rest hf hp hm _ (ev_exprLoop_stop pc m e ha)
  have h1 : pExpr pc m (N + exprFuel (us ++ rest)) (us ++ rest) = _ :=
    hN (N + exprFuel (us ++ rest)) (by omega)
  rw [← h1]
  exact (pExpr_enough pc m (us ++ rest) (by omega)).symm

/-- the disambiguated grammar is contained in the published one -/
theorem gram_published {pc : PCfg V} {m o : Bool} {lvl : Lvl} {us : List (Tok V)} {e : Expr V}
    (h : Gram False m pc o lvl us e) : Gram True m pc o lvl us e := by
  induction h with
  | id => exact .id
  | pid h1 h2 h3 => exact .pid h1 h2 h3
  | num => exact .num
  | paren _ ih => exact .paren ih
  | sign h _ ih => exact .sign h ih
  | atom _ ih => exact .atom ih
  | func _ ih => exact .func ih
  | call _ ih => exact .call ih
  | pow _ _ _ ih1 ih2 => exact .pow (Or.inl trivial) ih1 ih2
  | expo _ ih => exact .expo ih
  | mul _ h _ _ ih1 ih2 => exact .mul (Or.inl trivial) h ih1 ih2
  | term _ ih => exact .term ih
  | add h _ _ ih1 ih2 => exact .add h ih1 ih2

end Pynare
