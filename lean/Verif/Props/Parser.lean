import Verif.Lemmas.ParserFile
import Verif.Props.Lexer
/-! # Properties C11-C14 and C16: the parser -/

namespace Pynare

variable {V : Type}

theorem readExpr_eq (pc : PCfg V) (m : Bool) (ts : List (Tok V)) :
    readExpr pc m ts = pExpr pc m (exprFuel ts) ts := by cases m <;> rfl

theorem stops_sym (m : Bool) {s : Sym} (h : s ∉ [Sym.power, .mul, .div, .plus, .minus, .lpare])
    (ts : List (Tok V)) : Stops m (.sym s :: ts) := by
  refine ⟨_, _, rfl, by simp, ?_, ?_⟩
  · intro _ e; cases e; exact h (by decide)
  · intro s' hs e; cases e; simp at h hs; simp_all

theorem stops_eof (m : Bool) (ts : List (Tok V)) : Stops m (.eof :: ts) := by
  refine ⟨_, _, rfl, by simp, by simp, by simp⟩

/-- Numbers for the concrete cases: naturals, every literal being its own period. -/
def natPC : PCfg Nat := ⟨fun n => .ok n, 0⟩

/-! ### C11: the grammar -/

/-- C11, soundness.  Whatever the parser reads from a token sequence in which no function call
directly follows a closing parenthesis is a phrase of the published grammar for the tree it
returns (and of the disambiguated one), and the next token exists and is no operator.
Missing: sequences with `f(..) g(..)`, see `C11_calls_dropped`. -/
theorem C11_sound_partial (pc : PCfg V) (m : Bool) (ts : List (Tok V)) (e : Expr V)
    (rest : List (Tok V)) (hN : NoCallAfterParen ts) (h : readExpr pc m ts = .ok (e, rest)) :
    ∃ us, ts = us ++ rest ∧ Published m pc us e ∧ Derives m pc us e ∧
      ∃ t rest', rest = t :: rest' ∧ ∀ s ∈ [Sym.power, .mul, .div, .plus, .minus], t ≠ .sym s := by
  rw [readExpr_eq] at h
  obtain ⟨hne, us, o, e1, g, f1, f2, f3⟩ := (parser_sound pc m _).2.2.2.2.2.2.1 _ _ hN h
  refine ⟨us, e1, ⟨o, gram_published g⟩, ⟨o, g⟩, ?_⟩
  cases rest with
  | nil => exact absurd rfl hne
  | cons t rest =>
    refine ⟨t, rest, rfl, ?_⟩
    rintro s hs rfl
    simp only [List.mem_cons, List.not_mem_nil, or_false] at hs
    rcases hs with rfl | rfl | rfl | rfl | rfl
    · cases f1
    · cases f2
    · cases f2
    · cases f3
    · cases f3

/-- C11, completeness, for the grammar with greedy signs: a phrase followed by a token that
cannot continue it is read as its tree, and exactly the phrase is consumed. -/
theorem C11_complete (pc : PCfg V) (m : Bool) (us rest : List (Tok V)) (e : Expr V)
    (h : Derives m pc us e) (hs : Stops m rest) : readExpr pc m (us ++ rest) = .ok (e, rest) := by
  rw [readExpr_eq]
  exact pExpr_complete h hs

example : Derives false natPC [.sym .minus, .id "a", .sym .mul, .id "b"]
    (.un .neg (.bin .mul (.var "a") (.var "b"))) ∧ Stops false [(.eof : Tok Nat)] :=
  ⟨⟨true, .term (.expo (.call (.atom (.sign rfl
    (.mul (Or.inr rfl) rfl (.expo (.call (.atom .id))) (.call (.atom .id)))))))⟩, stops_eof _ _⟩

/-- A case of `C11_sound_partial`. -/
example : NoCallAfterParen [.id "a", .sym .mul, .func .exp, .sym .lpare, .id "b", .sym .rpare, (.eof : Tok Nat)] ∧
    readExpr natPC false [.id "a", .sym .mul, .func .exp, .sym .lpare, .id "b", .sym .rpare, .eof] =
      .ok (.bin .mul (.var "a") (.fn .exp (.var "b")), [.eof]) := by
  refine ⟨?_, C11_complete natPC false [.id "a", .sym .mul, .func .exp, .sym .lpare, .id "b", .sym .rpare]
    [.eof] _ ⟨false, .term (.mul (ts := [.id "a"]) (Or.inr rfl) rfl (.expo (.call (.atom .id)))
      (.call (.func (ts := [.id "b"]) (.term (.expo (.call (.atom .id)))))))⟩ (stops_eof _ _)⟩
  intro pre f post h
  match pre, h with
  | [], h => cases h
  | [_], h => cases h
  | [_, _], h => cases h
  | [_, _, _], h => cases h
  | [_, _, _, _], h => cases h
  | [_, _, _, _, _], h => cases h
  | [_, _, _, _, _, _], h => cases h
  | _ :: _ :: _ :: _ :: _ :: _ :: _ :: _, h => simp at h

/-- The grammar with greedy signs is unambiguous. -/
theorem C11_unambiguous (pc : PCfg V) (m : Bool) (us : List (Tok V)) (e e' : Expr V)
    (h : Derives m pc us e) (h' : Derives m pc us e') : e = e' := by
  have h1 := C11_complete pc m us [.eof] e h (stops_eof _ _)
  have h2 := C11_complete pc m us [.eof] e' h' (stops_eof _ _)
  rw [h1] at h2
  cases h2; rfl

/-- Completeness fails for the published grammar, which is ambiguous: for every operands `x`, `y`
and sign, two trees are published for `- x * y`, so the parser cannot return "that tree". -/
theorem C11_published_ambiguous (pc : PCfg V) (m : Bool) (x y : String) :
    ∃ e e' : Expr V, e ≠ e' ∧
      Published m pc [.sym .minus, .id x, .sym .mul, .id y] e ∧
      Published m pc [.sym .minus, .id x, .sym .mul, .id y] e' := by
  refine ⟨.un .neg (.bin .mul (.var x) (.var y)), .bin .mul (.un .neg (.var x)) (.var y), by simp,
    ⟨true, ?_⟩, ⟨false, ?_⟩⟩
  · exact .term (.expo (.call (.atom (.sign rfl
      (.mul (Or.inl trivial) rfl (.expo (.call (.atom .id))) (.call (.atom .id)))))))
  · exact .term (.mul (ts := [.sym .minus, .id x]) (Or.inl trivial) rfl
      (.expo (.call (.atom (.sign rfl (.expo (.call (.atom .id))))))) (.call (.atom .id)))

/-- Soundness fails after a closing parenthesis: of two function calls written side by side the
parser drops the first, although no phrase of the published grammar looks like that. -/
theorem C11_calls_dropped (pc : PCfg V) (m : Bool) (f g : Fn) (us vs rest : List (Tok V))
    (d e : Expr V) (hu : Derives m pc us d) (hv : Derives m pc vs e) (hs : Stops m rest) :
    let ts : List (Tok V) := .func f :: .sym .lpare :: us ++ .sym .rpare ::
      .func g :: .sym .lpare :: vs ++ [.sym .rpare]
    readExpr pc m (ts ++ rest) = .ok (.fn g e, rest) ∧ ∀ t, ¬ Published m pc ts t := by
  constructor
  · obtain ⟨o, gu⟩ := hu
    obtain ⟨o', gv⟩ := hv
    obtain ⟨hf, hp, hm, ha⟩ := hs.follow
    have fr : ∀ R : List (Tok V), Follow m (.sym .rpare :: R) := follow_sym m (by intro h; cases h)
    have step : ∀ (node : Option (Expr V)) (k : Fn) (o : Bool) (ws R : List (Tok V)) (c : Expr V)
        (out : Out (Expr V × List (Tok V))), Gram False m pc o .expr ws c → R ≠ [] →
        Ev (fun n => pCall pc m n (some (.fn k c)) R) out →
        Ev (fun n => pCall pc m n node (.func k :: .sym .lpare :: (ws ++ .sym .rpare :: R))) out := by
      intro node k o ws R c out gw hR hout
      refine Ev.succ ?_
      have h1 := parser_complete gw (.sym .rpare :: R) (fr R) rfl rfl _ (ev_exprLoop_stop pc m c rfl)
      have h2 : ∀ n, pCall pc m (n + 1) node (.func k :: .sym .lpare :: (ws ++ .sym .rpare :: R)) =
          (pExpr pc m n (ws ++ .sym .rpare :: R) >>= fun e => do
            let r' ← eatSym .rpare e.2
            pCall pc m n (some (.fn k e.1)) r') := by
        intro n
        conv => lhs; unfold pCall
        simp only [adv_cons _ (List.cons_ne_nil _ _), Out.ok_bind]
        rw [eatSym_self _ (by simp), Out.ok_bind]
      simp only [h2]
      refine Ev.bind h1 ?_
      simp only [eatSym_self _ hR, Out.ok_bind]
      exact hout
    have last : Ev (fun n => pCall pc m n (some (.fn g e)) rest) (.ok (.fn g e, rest)) := by
      refine Ev.succ ⟨0, fun n _ => ?_⟩
      simp only
      unfold pCall
      have := hf.func
      cases rest with
      | nil => exact absurd rfl hf.ne
      | cons t us => cases t <;> first | rfl | exact absurd rfl (this _ _)
    have c1 := step none f o us (.func g :: .sym .lpare :: (vs ++ .sym .rpare :: rest)) d _ gu (by simp)
      (step _ g o' vs rest e _ gv hf.ne last)
    generalize hT : (Tok.func f :: .sym .lpare :: us ++ .sym .rpare ::
      .func g :: .sym .lpare :: vs ++ [.sym .rpare]) ++ rest = T
    have hT' : T = .func f :: .sym .lpare :: (us ++ .sym .rpare ::
        .func g :: .sym .lpare :: (vs ++ .sym .rpare :: rest)) := by rw [← hT]; simp
    rw [← hT'] at c1
    have c2 : Ev (fun n => pExpo pc m n T) (.ok (.fn g e, rest)) := by
      refine Ev.succ ?_
      have : ∀ n, pExpo pc m (n + 1) T = (pCall pc m n none T >>= fun l => pExpoLoop pc m n l.1 l.2) := by
        intro n; conv => lhs; unfold pExpo
      simp only [this]
      exact Ev.bind c1 (ev_expoLoop_stop _ _ _ hp)
    have c3 : Ev (fun n => pTerm pc m n T) (.ok (.fn g e, rest)) := by
      refine Ev.succ ?_
      have : ∀ n, pTerm pc m (n + 1) T = (pExpo pc m n T >>= fun l => pTermLoop pc m n l.1 l.2) := by
        intro n; conv => lhs; unfold pTerm
      simp only [this]
      exact Ev.bind c2 (ev_termLoop_stop _ _ _ hm)
    have c4 : Ev (fun n => pExpr pc m n T) (.ok (.fn g e, rest)) := by
      refine Ev.succ ?_
      have : ∀ n, pExpr pc m (n + 1) T = (pTerm pc m n T >>= fun l => pExprLoop pc m n l.1 l.2) := by
        intro n; conv => lhs; unfold pExpr
      simp only [this]
      exact Ev.bind c3 (ev_exprLoop_stop _ _ _ ha)
    obtain ⟨N, hN⟩ := c4
    have h1 : pExpr pc m (N + exprFuel T) T = _ := hN (N + exprFuel T) (by omega)
    rw [readExpr_eq, ← h1]
    exact (pExpr_enough pc m T (by omega)).symm
  · rintro t ⟨o, h⟩
    exact gram_noCall h (.func f :: .sym .lpare :: us) g (.sym .lpare :: vs ++ [.sym .rpare]) (by simp)

/-! ### C12: printing and parsing -/

/-- C12.  Printing any tree with minimal parentheses and parsing it gives the tree back, in
numeric expressions and (with period variables) in model equations. -/
theorem C12_print_parse (pc : PCfg V) (m : Bool) (lit : Nat → V)
    (hlit : m = true → ∀ k, pc.trunc (lit k) = .ok k) (e : Expr V) (he : e.plain m)
    (rest : List (Tok V)) (hs : Stops m rest) :
    readExpr pc m (e.print lit .expr true ++ rest) = .ok (e, rest) := by
  obtain ⟨o, _, g⟩ := print_gram hlit e he .expr true (by simp)
  exact C11_complete pc m _ rest e ⟨o, g⟩ hs

example : (Expr.bin .pow (.un .neg (.var "a")) (.bin .sub (.pvar "b" (-1)) (.num 2)) : Expr Nat).plain true ∧
    (Expr.bin .pow (.un .neg (.var "a")) (.bin .sub (.pvar "b" (-1)) (.num 2)) : Expr Nat).print id .expr true =
      [.sym .lpare, .sym .minus, .id "a", .sym .rpare, .sym .power, .sym .lpare, .id "b", .sym .lpare,
        .sym .minus, .num 1, .sym .rpare, .sym .minus, .num 2, .sym .rpare] ∧
    (∀ k, natPC.trunc (id k) = .ok k) := by
  refine ⟨?_, rfl, fun _ => rfl⟩
  exact ⟨trivial, rfl, trivial⟩

/-- C12 for comparisons, as `parse` reads them at the top level. -/
theorem C12_comparison (pc : PCfg V) (lit : Nat → V) (c : CmpOp) (l r : Expr V) (hl : l.plain false) (hr : r.plain false) (rest : List (Tok V))
    (hs : Stops false rest) :
    parseTokens pc (l.print lit .expr true ++ .sym c.sym :: r.print lit .expr true ++ rest) =
      .ok (.cmp c l r) := by
  have hc : c.sym.cmpOp = some c := by cases c <;> rfl
  have hss : Stops false (.sym c.sym :: (r.print lit .expr true ++ rest)) := by
    refine stops_sym _ ?_ _
    intro h
    simp only [List.mem_cons, List.not_mem_nil, or_false] at h
    cases c <;> simp [CmpOp.sym] at h
  have h1 := C12_print_parse pc false lit (by simp) l hl _ hss
  have h2 := C12_print_parse pc false lit (by simp) r hr rest hs
  simp only [readExpr, Bool.false_eq_true, if_false] at h1 h2
  have hne : r.print lit .expr true ++ rest ≠ [] := by
    obtain ⟨t, ts, rfl, _⟩ := hs; simp
  unfold parseTokens parseComp
  rw [List.append_assoc, List.cons_append, h1, Out.ok_bind]
  simp only [headOp, hc, adv_cons _ hne, Out.ok_bind, h2]

/-- C12 on texts: any way of writing the printed tokens is read back by `parse_string` as the
tree. -/
theorem C12_text {cfg : LexCfg V} (ok : CharOk cfg) (pc : PCfg V) (lit : Nat → V) (e : Expr V)
    (he : e.plain false) (text : List Char) (hw : Written cfg (e.print lit .expr true) text []) :
    parseString cfg pc text = .ok e := by
  obtain ⟨o, _, g⟩ := print_gram (pc := pc) (lit := lit) (m := false) (by simp) e he .expr true (by simp)
  unfold parseString
  rw [C09_lexing_inverts_printing ok _ text (gram_ne g) hw, Out.ok_bind]
  have h := C12_print_parse pc false lit (by simp) e he [.eof] (stops_eof _ _)
  simp only [readExpr, Bool.false_eq_true, if_false] at h
  unfold parseTokens parseComp
  rw [h]; rfl

/-- The printed form has the fewest tokens among all phrases that parse to the tree: the
parentheses are minimal. -/
theorem C12_minimal (pc : PCfg V) (m : Bool) (lit : Nat → V) (e : Expr V) (us : List (Tok V))
    (h : Derives m pc us e) : (e.print lit .expr true).length ≤ us.length := by
  obtain ⟨o, g⟩ := h
  have h1 := print_minimal lit g
  have h2 := print_open lit e .expr
  cases o <;> omega

/-! ### C13: the whole expression -/

/-- C13 is false: whatever follows a complete expression is ignored, as long as it does not start
with an operator, a comparison or a function. -/
theorem C13_leftover_ignored (pc : PCfg V) (us rest : List (Tok V)) (e : Expr V)
    (h : Derives false pc us e) (hs : Stops false rest) (hc : headOp Sym.cmpOp rest = none) :
    parseTokens pc (us ++ rest) = .ok e := by
  have h1 := C11_complete pc false us rest e h hs
  simp only [readExpr, Bool.false_eq_true, if_false] at h1
  unfold parseTokens parseComp
  rw [h1, Out.ok_bind]
  simp only [hc, Out.ok_bind]

example : parseString (asciiCfg false false) natPC ['1', ' ', '2'] = .ok (.num 1) := by
  have h : (asciiCfg false false).kinds ['1', ' ', '2'] = .ok [.num 1, .num 2, .eof] := by decide
  unfold parseString
  rw [h, Out.ok_bind]
  exact C13_leftover_ignored natPC [.num 1] [.num 2, .eof] _
    ⟨false, .term (.expo (.call (.atom .num)))⟩ ⟨_, _, rfl, by simp, by simp, by simp⟩ rfl
example : Derives false natPC [.num 1] (.num 1) ∧
    Stops false [.num 2, .sym .rpare, .id "x", (.eof : Tok Nat)] :=
  ⟨⟨false, .term (.expo (.call (.atom .num)))⟩, ⟨_, _, rfl, by simp, by simp, by simp⟩⟩

/-- C13, the part that holds: when the tokens are those of expressions, no operand directly
follows an operand and no closing parenthesis lacks its opening one, acceptance means that all
tokens together derive the tree. -/
theorem C13_whole_partial (pc : PCfg V) (ts : List (Tok V)) (e : Expr V) (ho : OneExpr ts)
    (h : parseTokens pc (ts ++ [.eof]) = .ok e) : Derives false pc ts e := by
  have hN : NoCallAfterParen (ts ++ [.eof]) := by
    intro pre f post he
    rcases List.eq_nil_or_concat post with rfl | ⟨post', x, rfl⟩
    · have := congrArg List.getLast? he
      simp at this
    · have hl : ts = pre ++ .sym .rpare :: .func f :: post' := by
        have h' : ts ++ [.eof] = (pre ++ .sym .rpare :: .func f :: post') ++ [x] := by rw [he]; simp
        exact (List.append_inj' h' rfl).1
      have := ho.apart _ _ _ _ hl rfl
      cases this
  unfold parseTokens at h
  obtain ⟨a, h1, h⟩ := Out.bind_ok_iff.mp h
  cases h
  unfold parseComp at h1
  obtain ⟨b, h2, h3⟩ := Out.bind_ok_iff.mp h1
  have hr : readExpr pc false (ts ++ [.eof]) = .ok (b.1, b.2) := h2
  obtain ⟨us, e1, _, hd, t, rest, e2, hop⟩ := C11_sound_partial pc false _ b.1 b.2 hN hr
  rw [e2] at e1
  have key : ts = us ∧ t = .eof := by
    rcases List.eq_nil_or_concat rest with rfl | ⟨rest', x, rfl⟩
    · have h' := List.append_inj' e1 rfl
      exact ⟨h'.1, by simpa using h'.2.symm⟩
    · exfalso
      have hl : ts = us ++ t :: rest' := by
        have h' : ts ++ [.eof] = (us ++ t :: rest') ++ [x] := by rw [e1]; simp
        exact (List.append_inj' h' rfl).1
      obtain ⟨o, g⟩ := hd
      obtain ⟨pre, l, hpl, hend⟩ := gram_last g
      have hst := ho.apart pre l t rest' (by rw [hl, hpl]; simp) hend
      have hin := ho.toks t (by rw [hl]; simp)
      cases t with
      | sym s =>
        have : s = .rpare := by
          cases s <;> first
            | rfl
            | (simp [Tok.inExpr] at hin; done)
            | (simp [Tok.startsOperand] at hst; done)
            | exact absurd rfl (hop _ (by decide))
        subst this
        have h1 := ho.opened (us ++ [.sym .rpare]) rest' (by rw [hl]; simp)
        have h2 := gram_balanced g
        simp only [symCount_append] at h1
        have h3 : symCount .rpare [(.sym .rpare : Tok V)] = 1 := rfl
        have h4 : symCount .lpare [(.sym .rpare : Tok V)] = 0 := rfl
        omega
      | _ => first
          | (simp [Tok.inExpr] at hin; done)
          | (simp [Tok.startsOperand] at hst; done)
  rw [e2, key.2] at h3
  simp only [headOp] at h3
  cases h3
  rw [key.1]
  exact hd

example : parseTokens natPC ([.sym .lpare, .id "a", .sym .rpare] ++ [.eof]) = .ok (.var "a") :=
  C13_leftover_ignored natPC _ _ _ ⟨false, .term (.expo (.call (.atom (.paren (ts := [.id "a"])
    (.term (.expo (.call (.atom .id))))))))⟩ (stops_eof _ _) rfl
example : OneExpr [.sym .lpare, .id "a", (.sym .rpare : Tok Nat)] where
  toks := by decide
  apart := by
    intro pre a b post h ha
    match pre, h with
    | [], h => cases h; cases ha
    | [_], h => cases h; rfl
    | [_, _], h => cases h
    | _ :: _ :: _ :: _, h => simp at h
  opened := by
    intro pre post h
    match pre, h with
    | [], _ => decide
    | [_], h => cases h; decide
    | [_, _], h => cases h; decide
    | [_, _, _], h => cases h; decide
    | _ :: _ :: _ :: _ :: _, h => simp at h

/-! ### C14: signs -/

/-- C14 is false: a sign applies to the whole product, quotient or power that follows it, whatever
its factors. -/
theorem C14_sign_takes_product (pc : PCfg V) (m : Bool) (s : Sym) (u : UnOp) (hs : s.sign = some u)
    (us rest : List (Tok V)) (e : Expr V) (o : Bool) (h : Gram False m pc o .term us e)
    (hr : Stops m rest) : readExpr pc m (.sym s :: us ++ rest) = .ok (.un u e, rest) := by
  refine C11_complete pc m (.sym s :: us) rest _ ⟨true, ?_⟩ hr
  exact .term (.expo (.call (.atom (.sign hs h))))

/-- C14 is false: `a / - b * c` is read as `a / (-(b * c))` (the example below shows that the
value differs). -/
theorem C14_false (pc : PCfg V) (m : Bool) (a b c : String) :
    readExpr pc m [.id a, .sym .div, .sym .minus, .id b, .sym .mul, .id c, .eof] =
      .ok (.bin .div (.var a) (.un .neg (.bin .mul (.var b) (.var c))), [.eof]) := by
  refine C11_complete pc m [.id a, .sym .div, .sym .minus, .id b, .sym .mul, .id c] [.eof] _ ⟨true, ?_⟩
    (stops_eof _ _)
  refine .term (.mul (ts := [.id a]) (Or.inr rfl) rfl (.expo (.call (.atom .id))) ?_)
  exact .call (.atom (.sign rfl (.mul (ts := [.id b]) (Or.inr rfl) rfl
    (.expo (.call (.atom .id))) (.call (.atom .id)))))

/-- C14, the part that holds: a sign in front of an operand (a power, call, name, number or
parenthesis) that is followed neither by `*` nor by `/` applies to that operand only, whatever
product or sum it ends. -/
theorem C14_last_factor_partial (pc : PCfg V) (m : Bool) (s t : Sym) (u : UnOp) (b : BinOp)
    (hs : s.sign = some u) (us vs rest : List (Tok V)) (l e : Expr V) (o : Bool)
    (he : Gram False m pc o .expo us e) (hr : Stops m rest) :
    readExpr pc m (.sym s :: us ++ rest) = .ok (.un u e, rest) ∧
    (t.mulOp = some b → Gram False m pc false .term vs l →
      readExpr pc m (vs ++ .sym t :: .sym s :: us ++ rest) = .ok (.bin b l (.un u e), rest)) ∧
    (t.addOp = some b → Derives m pc vs l →
      readExpr pc m (vs ++ .sym t :: .sym s :: us ++ rest) = .ok (.bin b l (.un u e), rest)) := by
  have hsg : Gram False m pc true .expo (.sym s :: us) (.un u e) := .call (.atom (.sign hs (.expo he)))
  refine ⟨C14_sign_takes_product pc m s u hs us rest e o (.expo he) hr, ?_, ?_⟩
  · intro ht hv
    have := C11_complete pc m (vs ++ .sym t :: .sym s :: us) rest _
      ⟨true, .term (.mul (Or.inr rfl) ht hv hsg)⟩ hr
    simpa using this
  · rintro ht ⟨o', hv⟩
    have := C11_complete pc m (vs ++ .sym t :: .sym s :: us) rest _
      ⟨true, .add ht hv (.expo hsg)⟩ hr
    simpa using this

example : Gram False false natPC false .expo [.id "b"] (.var "b") := .call (.atom .id)

/-- A difference in value: with integers, 8 / (-2) * 2 is -8 but the tree read evaluates to -2. -/
example : (8 / -(2 * 2) : Int) = -2 ∧ (8 / -2 * 2 : Int) = -8 := by decide

/-! ### C16: the preamble -/

/-- C16 is false: after any number of well-formed declarations and assignments, any token that
starts neither a statement nor the model block makes the parser loop for ever. -/
theorem C16_dead_token_hangs (pc : PCfg V) (items : List (List (Tok V)))
    (hi : ∀ i ∈ items, PreItem pc i) (t : Tok V) (ht : ¬ StartsItem t) (rest : List (Tok V)) :
    preamble pc (items.flatten ++ t :: rest) = .hang ∧
    parseModel pc (items.flatten ++ t :: rest) = .hang := by
  have h : preamble pc (items.flatten ++ t :: rest) = .hang := preambleLoop_hang pc hi ht rest _
  exact ⟨h, (parseModel_hang_iff pc _).mpr h⟩

example : PreItem natPC [.kw "var", .id "y", .sym .semi] ∧ ¬ StartsItem (.eof : Tok Nat) := by
  refine ⟨.decl (us := [.id "y"]) (by decide) (.name .nil), ?_⟩
  rintro (⟨x, h⟩ | h | ⟨k, _, h⟩) <;> cases h

/-- In particular a file without a model block. -/
theorem C16_no_model_block_hangs (pc : PCfg V) (items : List (List (Tok V)))
    (hi : ∀ i ∈ items, PreItem pc i) : parseModel pc (items.flatten ++ [.eof]) = .hang := by
  refine (C16_dead_token_hangs pc items hi .eof ?_ []).2
  rintro (⟨x, h⟩ | h | ⟨k, _, h⟩) <;> cases h

/-- C16, the part that holds: if the first token, and every token that follows a semicolon before
the model block, starts a statement or the model block, parsing the declarations – and the whole
file – returns or raises.  Missing: the other token sequences, some of which hang. -/
theorem C16_terminates_partial (pc : PCfg V) (ts : List (Tok V))
    (hg : ∀ pre t post, ts = pre ++ t :: post → .kw "model" ∉ pre →
      (pre = [] ∨ ∃ p, pre = p ++ [.sym .semi]) → StartsItem t) :
    preamble pc ts ≠ .hang ∧ parseModel pc ts ≠ .hang := by
  have h : preamble pc ts ≠ .hang :=
    preambleLoop_not_hang pc ts hg _ [] ts rfl (by simp) (Or.inl rfl) (by omega)
  exact ⟨h, fun h' => h ((parseModel_hang_iff pc ts).mp h')⟩

example : ∀ pre t post, [.kw "var", .id "y", .sym .semi, .kw "model", (.eof : Tok Nat)] = pre ++ t :: post →
    .kw "model" ∉ pre → (pre = [] ∨ ∃ p, pre = p ++ [.sym .semi]) → StartsItem t := by
  intro pre t post h hm hp
  match pre, h with
  | [], h => cases h; exact Or.inr (Or.inr ⟨"var", by decide, rfl⟩)
  | [_], h => cases h; rcases hp with hp | ⟨p, hp⟩
              · cases hp
              · have := congrArg List.getLast? hp; simp at this
  | [_, _], h => cases h; rcases hp with hp | ⟨p, hp⟩
                 · cases hp
                 · have := congrArg List.getLast? hp; simp at this
  | [_, _, _], h => cases h; exact Or.inr (Or.inl rfl)
  | [_, _, _, _], h => cases h; simp at hm
  | _ :: _ :: _ :: _ :: _ :: _, h => simp at h

/-- Only the preamble can loop: parsing a model file runs for ever exactly when parsing its
declarations does. -/
theorem C16_only_preamble_hangs (pc : PCfg V) (ts : List (Tok V)) :
    parseModel pc ts = .hang ↔ preamble pc ts = .hang := parseModel_hang_iff pc ts

/-- Parsing a numeric expression always returns or raises. -/
theorem C16_expressions_terminate (pc : PCfg V) (m : Bool) (ts : List (Tok V)) :
    readExpr pc m ts ≠ .hang := by rw [readExpr_eq]; exact expr_not_hang pc m ts

#print axioms C11_sound_partial
#print axioms C11_complete
#print axioms C11_unambiguous
#print axioms C11_published_ambiguous
#print axioms C11_calls_dropped
#print axioms C12_print_parse
#print axioms C12_comparison
#print axioms C12_text
#print axioms C12_minimal
#print axioms C13_leftover_ignored
#print axioms C13_whole_partial
#print axioms C14_sign_takes_product
#print axioms C14_false
#print axioms C14_last_factor_partial
#print axioms C16_dead_token_hangs
#print axioms C16_terminates_partial
#print axioms C16_only_preamble_hangs
#print axioms C16_expressions_terminate

end Pynare
