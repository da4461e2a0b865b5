import Verif.Spec.FileGram
import Verif.Props.Parser
import Verif.Lemmas.ParserPrint
/-! The parser of model files reads exactly the files of the grammar. -/

namespace Pynare

variable {V : Type}

/-! ### Completeness -/

theorem parseExpr_read {pc : PCfg V} {us : List (Tok V)} {e : Expr V} (h : Derives false pc us e) {s : Sym}
    (hs : s ∉ [Sym.power, .mul, .div, .plus, .minus, .lpare]) (rest : List (Tok V)) :
    parseExpr pc (us ++ .sym s :: rest) = .ok (e, .sym s :: rest) :=
  pExpr_complete h (stops_sym _ hs _)

theorem parseMExpr_read {pc : PCfg V} {us : List (Tok V)} {e : Expr V} (h : Derives true pc us e) {s : Sym}
    (hs : s ∉ [Sym.power, .mul, .div, .plus, .minus, .lpare]) (rest : List (Tok V)) :
    parseMExpr pc (us ++ .sym s :: rest) = .ok (e, .sym s :: rest) :=
  pExpr_complete h (stops_sym _ hs _)

theorem derives_head {pc : PCfg V} {m : Bool} {us : List (Tok V)} {e : Expr V} (h : Derives m pc us e) :
    ∃ t ts, us = t :: ts ∧ t.inExpr = true := by
  obtain ⟨o, g⟩ := h
  cases us with
  | nil => exact absurd rfl (gram_ne g)
  | cons t ts => exact ⟨t, ts, rfl, gram_toks g t (by simp)⟩

theorem pred_of_lt {a n : Nat} (h : a < n) : ∃ k, n = k + 1 := ⟨n - 1, by omega⟩

theorem assignment_read {pc : PCfg V} {us : List (Tok V)} {a} (h : AssignOf pc us a) {rest : List (Tok V)}
    (hr : rest ≠ []) : assignment pc (us ++ rest) = .ok (a, rest) := by
  obtain ⟨h⟩ := h
  have := parseExpr_read h (s := .semi) (by decide) rest
  simp [assignment, eatId, adv_cons, eatSym_self, this, hr]

theorem declNames_read {us : List (Tok V)} {xs} (h : NamesOf us xs) (rest : List (Tok V)) :
    ∀ n, us.length < n → declNames n (us ++ .sym .semi :: rest) = .ok (xs, .sym .semi :: rest) := by
  induction h with
  | nil =>
    intro n hn
    obtain ⟨k, rfl⟩ := pred_of_lt hn
    unfold declNames; rfl
  | @name x us _ _ ih =>
    intro n hn
    obtain ⟨k, rfl⟩ := pred_of_lt hn
    have h := ih k (by simp at hn; omega)
    simp [declNames, eatId, adv_cons, h]
  | @comma x us _ _ ih =>
    intro n hn
    obtain ⟨k, rfl⟩ := pred_of_lt hn
    have h := ih k (by simp at hn; omega)
    simp [declNames, eatId, adv_cons, h]

theorem typeDecl_read {us : List (Tok V)} {xs} (h : NamesOf us xs) (k : String) {rest : List (Tok V)} (hr : rest ≠ []) :
    typeDecl k (.kw k :: us ++ .sym .semi :: rest) = .ok (xs.map (fun x => (x, k)), rest) := by
  have := declNames_read h rest ((us ++ .sym .semi :: rest).length + 1) (by simp; omega)
  simp only [List.length_append, List.length_cons] at this
  simp [typeDecl, adv_cons, this, eatSym_self, hr]

theorem varTypes_not_model {k : String} (h : k ∈ varTypes) : k ≠ "model" := by
  rintro rfl; revert h; decide +kernel

theorem preambleLoop_read {pc : PCfg V} {us : List (Tok V)} {ds ps} (h : PreOf pc us ds ps) (rest : List (Tok V)) :
    ∀ n, us.length < n → preambleLoop pc n (us ++ .kw "model" :: rest) = .ok ((ds, ps), .kw "model" :: rest) := by
  induction h with
  | nil =>
    intro n hn
    obtain ⟨k, rfl⟩ := pred_of_lt hn
    simp [preambleLoop]
  | @decl k us xs vs ds ps hk hn _ ih =>
    intro n hl
    obtain ⟨j, rfl⟩ := pred_of_lt hl
    have h := ih j (by simp at hl; omega)
    have h' := typeDecl_read hn k (rest := vs ++ .kw "model" :: rest) (by simp)
    simp only [List.cons_append, List.append_assoc] at h' ⊢
    simp [preambleLoop, hk, varTypes_not_model hk, h', h]
  | @assign us a vs ds ps ha _ ih =>
    intro n hl
    obtain ⟨j, rfl⟩ := pred_of_lt hl
    have h' := assignment_read ha (rest := vs ++ .kw "model" :: rest) (by simp)
    obtain ⟨h⟩ := ha
    have h := ih j (by simp at hl; omega)
    simp only [List.cons_append, List.append_assoc, List.nil_append] at h' ⊢
    simp [preambleLoop, h', h]

theorem isSym_cons_ne {s s' : Sym} (h : s' ≠ s) (r : List (Tok V)) : isSym s (.sym s' :: r) = false := by
  simp [isSym, h]
theorem isSym_cons_self (s : Sym) (r : List (Tok V)) : isSym s (.sym s :: r) = true := by simp [isSym]

theorem singleArg_read {pc : PCfg V} {us : List (Tok V)} {a} (h : ArgOf pc us a) {s : Sym} (hs : s = .comma ∨ s = .rpare)
    (rest : List (Tok V)) : singleArg pc (us ++ .sym s :: rest) = .ok (a, .sym s :: rest) := by
  have hs' : s ≠ .equals := by rcases hs with rfl | rfl <;> decide
  cases h with
  | bare => simp [singleArg, eatId, adv_cons, isSym, hs']
  | str => simp [singleArg, eatId, adv_cons, isSym]
  | id => simp [singleArg, eatId, adv_cons, isSym]
  | @expr x us e h hid =>
    have he := parseExpr_read h (s := s) (by rcases hs with rfl | rfl <;> decide) rest
    obtain ⟨t, ts, rfl, ht⟩ := derives_head h
    cases t <;> first
      | exact absurd rfl (hid _ _)
      | cases ht; done
      | (simp only [List.cons_append] at he; simp [singleArg, eatId, adv_cons, isSym, he])

theorem argLoop_read {pc : PCfg V} {us : List (Tok V)} {as} (h : CommaTail (ArgOf pc) us as) (rest : List (Tok V)) :
    ∀ n, us.length < n → argLoop pc n (us ++ .sym .rpare :: rest) = .ok (as, .sym .rpare :: rest) := by
  induction h with
  | nil =>
    intro n hn
    obtain ⟨k, rfl⟩ := pred_of_lt hn
    simp [argLoop, isSym]
  | @cons us a vs as ha ht ih =>
    intro n hn
    obtain ⟨k, rfl⟩ := pred_of_lt hn
    have h := ih k (by simp at hn; omega)
    have h' : singleArg pc (us ++ (vs ++ .sym .rpare :: rest)) = .ok (a, vs ++ .sym .rpare :: rest) := by
      cases ht with
      | nil => exact singleArg_read ha (Or.inr rfl) _
      | @cons us' _ vs' _ _ _ => simpa using singleArg_read ha (Or.inl rfl) (us' ++ vs' ++ .sym .rpare :: rest)
    simp [argLoop, isSym, adv_cons, h', h]

theorem optArgs_read {pc : PCfg V} {us : List (Tok V)} {as} (h : ArgsOf pc us as) (rest : List (Tok V)) :
    optArgs pc (us ++ .sym .semi :: rest) = .ok (as, .sym .semi :: rest) := by
  cases h with
  | none => simp [optArgs, isSym]
  | @some us a vs as ha ht =>
    have h := argLoop_read ht (.sym .semi :: rest) ((vs ++ .sym .rpare :: .sym .semi :: rest).length + 1) (by simp; omega)
    have h' : singleArg pc (us ++ (vs ++ .sym .rpare :: .sym .semi :: rest)) = .ok (a, vs ++ .sym .rpare :: .sym .semi :: rest) := by
      cases ht with
      | nil => exact singleArg_read ha (Or.inr rfl) _
      | @cons us' _ vs' _ _ _ => simpa using singleArg_read ha (Or.inl rfl) (us' ++ vs' ++ .sym .rpare :: .sym .semi :: rest)
    simp only [List.length_append, List.length_cons] at h
    simp [optArgs, isSym, adv_cons, h', h, eatSym_self]

theorem singleTag_read {us : List (Tok V)} {a} (h : TagOf us a) {s : Sym} (hs : s = .comma ∨ s = .rbracket)
    (rest : List (Tok V)) : singleTag (us ++ .sym s :: rest) = .ok (a, .sym s :: rest) := by
  have hs' : s ≠ .equals := by rcases hs with rfl | rfl <;> decide
  cases h with
  | bare => simp [singleTag, eatId, adv_cons, isSym, hs']
  | str => simp [singleTag, eatId, adv_cons, isSym]

theorem tagLoop_read {us : List (Tok V)} {as} (h : CommaTail TagOf us as) (rest : List (Tok V)) :
    ∀ n, us.length < n → tagLoop n (us ++ .sym .rbracket :: rest) = .ok (as, .sym .rbracket :: rest) := by
  induction h with
  | nil =>
    intro n hn
    obtain ⟨k, rfl⟩ := pred_of_lt hn
    simp [tagLoop, isSym]
  | @cons us a vs as ha ht ih =>
    intro n hn
    obtain ⟨k, rfl⟩ := pred_of_lt hn
    have h := ih k (by simp at hn; omega)
    have h' : singleTag (us ++ (vs ++ .sym .rbracket :: rest)) = .ok (a, vs ++ .sym .rbracket :: rest) := by
      cases ht with
      | nil => exact singleTag_read ha (Or.inr rfl) _
      | @cons us' _ vs' _ _ _ => simpa using singleTag_read ha (Or.inl rfl) (us' ++ vs' ++ .sym .rbracket :: rest)
    simp [tagLoop, isSym, adv_cons, h', h]

theorem tagList_read {us vs : List (Tok V)} {a as} (ha : TagOf us a) (ht : CommaTail TagOf vs as) {rest : List (Tok V)}
    (hr : rest ≠ []) :
    tagList (.sym .lbracket :: us ++ vs ++ .sym .rbracket :: rest) = .ok (a :: as, rest) := by
  have h := tagLoop_read ht rest ((vs ++ .sym .rbracket :: rest).length + 1) (by simp; omega)
  have h' : singleTag (us ++ (vs ++ .sym .rbracket :: rest)) = .ok (a, vs ++ .sym .rbracket :: rest) := by
    cases ht with
    | nil => exact singleTag_read ha (Or.inr rfl) _
    | @cons us' _ vs' _ _ _ => simpa using singleTag_read ha (Or.inl rfl) (us' ++ vs' ++ .sym .rbracket :: rest)
  simp only [List.length_append, List.length_cons] at h
  simp [tagList, isSym, adv_cons, h', h, eatSym_self, hr]

theorem modelExpression_read {pc : PCfg V} {us : List (Tok V)} {lr} (h : EqOf pc us lr) (rest : List (Tok V)) :
    modelExpression pc (us ++ .sym .semi :: rest) = .ok (lr, .sym .semi :: rest) := by
  cases h with
  | @both us l vs r hl hr =>
    have h1 := parseMExpr_read hl (s := .equals) (by decide) (vs ++ .sym .semi :: rest)
    have h2 := parseMExpr_read hr (s := .semi) (by decide) rest
    simp [modelExpression, h1, h2, isSym, adv_cons]
  | left hl =>
    have h2 := parseMExpr_read hl (s := .semi) (by decide) rest
    simp [modelExpression, h2, isSym]

theorem eqOf_head {pc : PCfg V} {us : List (Tok V)} {lr} (h : EqOf pc us lr) : ∃ t ts, us = t :: ts ∧ t.inExpr = true := by
  cases h with
  | both hl hr =>
    obtain ⟨t, ts, rfl, ht⟩ := derives_head hl
    exact ⟨t, _, rfl, ht⟩
  | left hl => exact derives_head hl

theorem inExpr_not {t : Tok V} {ts : List (Tok V)} (h : t.inExpr = true) :
    isSym .pound (t :: ts) = false ∧ isSym .lbracket (t :: ts) = false ∧ isKw "end" (t :: ts) = false := by
  cases t with
  | sym s => cases s <;> simp_all [isSym, isKw, Tok.inExpr]
  | _ => simp_all [isSym, isKw, Tok.inExpr]

theorem modelStatement_read {pc : PCfg V} {us : List (Tok V)} {s} (h : StmtOf pc us s) {rest : List (Tok V)} (hr : rest ≠ []) :
    modelStatement pc (us ++ rest) = .ok (s, rest) := by
  cases h with
  | @loc x us e h =>
    have h2 := parseMExpr_read h (s := .semi) (by decide) rest
    simp [modelStatement, localDecl, isSym, eatSym_self, eatId, adv_cons, h2, hr]
  | @tagged us a vs as ws lr ha ht he =>
    have h1 := tagList_read ha ht (rest := ws ++ .sym .semi :: rest) (by simp)
    have h2 := modelExpression_read he rest
    simp only [List.cons_append, List.append_assoc] at h1
    simp [modelStatement, isSym, h1, h2, eatSym_self, hr]
  | @plain ws lr he =>
    have h2 := modelExpression_read he rest
    obtain ⟨t, ts, rfl, ht⟩ := eqOf_head he
    simp only [List.cons_append] at h2
    obtain ⟨n1, n2, -⟩ := inExpr_not (ts := ts ++ .sym .semi :: rest) ht
    simp [modelStatement, n1, n2, h2, eatSym_self, hr]

theorem modelLoop_read {pc : PCfg V} {us : List (Tok V)} {ss} (h : SeqOf (StmtOf pc) us ss) (rest : List (Tok V)) :
    ∀ n, us.length < n → modelLoop pc n (us ++ .kw "end" :: rest) = .ok (ss, .kw "end" :: rest) := by
  induction h with
  | nil =>
    intro n hn
    obtain ⟨k, rfl⟩ := pred_of_lt hn
    simp [modelLoop, isKw]
  | @cons us a vs as ha ht ih =>
    intro n hn
    obtain ⟨k, rfl⟩ := pred_of_lt hn
    have h' := modelStatement_read ha (rest := vs ++ .kw "end" :: rest) (by simp)
    have hh : isKw "end" (us ++ (vs ++ .kw "end" :: rest)) = false ∧ 0 < us.length := by
      cases ha with
      | loc => simp [isKw]
      | tagged => simp [isKw]
      | plain he =>
        obtain ⟨t, ts, rfl, ht⟩ := eqOf_head he
        exact ⟨(inExpr_not ht).2.2, by simp⟩
    have h := ih k (by simp at hn; omega)
    simp [modelLoop, hh.1, h', h]

theorem eatKw_self (k : String) {r : List (Tok V)} (h : r ≠ []) : eatKw k (.kw k :: r) = .ok r := by
  simp only [eatKw, if_true]
  exact adv_cons _ h

theorem modelDefinition_read {pc : PCfg V} {us : List (Tok V)} {m} (h : ModelOf pc us m) {rest : List (Tok V)} (hr : rest ≠ []) :
    modelDefinition pc (us ++ rest) = .ok (m, rest) := by
  obtain @⟨us, as, vs, ss, ha, hs⟩ := h
  have h1 := optArgs_read ha (vs ++ .kw "end" :: .sym .semi :: rest)
  have h2 := modelLoop_read hs (.sym .semi :: rest) ((vs ++ .kw "end" :: .sym .semi :: rest).length + 1) (by simp; omega)
  simp only [List.length_append, List.length_cons] at h2
  simp [modelDefinition, eatKw_self, eatSym_self, h1, h2, hr]

theorem boundLoop_read {pc : PCfg V} {us : List (Tok V)} {ss} (h : SeqOf (AssignOf pc) us ss) (rest : List (Tok V)) :
    ∀ n, us.length < n → boundLoop pc n (us ++ .kw "end" :: rest) = .ok (ss, .kw "end" :: rest) := by
  induction h with
  | nil =>
    intro n hn
    obtain ⟨k, rfl⟩ := pred_of_lt hn
    simp [boundLoop, isKw]
  | @cons us a vs as ha ht ih =>
    intro n hn
    obtain ⟨k, rfl⟩ := pred_of_lt hn
    have h' := assignment_read ha (rest := vs ++ .kw "end" :: rest) (by simp)
    obtain ⟨hd⟩ := ha
    have h := ih k (by simp at hn; omega)
    simp only [List.cons_append, List.append_assoc, List.nil_append] at h' ⊢
    simp [boundLoop, isKw, h', h]

theorem boundaryValues_read {pc : PCfg V} {us vs : List (Tok V)} {as bs} (k : String) (ha : ArgsOf pc us as)
    (hb : SeqOf (AssignOf pc) vs bs) {rest : List (Tok V)} (hr : rest ≠ []) :
    boundaryValues pc (.kw k :: (us ++ .sym .semi :: (vs ++ .kw "end" :: .sym .semi :: rest))) = .ok (⟨as, bs⟩, rest) := by
  have h1 := optArgs_read ha (vs ++ .kw "end" :: .sym .semi :: rest)
  have h2 := boundLoop_read hb (.sym .semi :: rest) ((vs ++ .kw "end" :: .sym .semi :: rest).length + 1) (by simp; omega)
  simp only [List.length_append, List.length_cons] at h2
  simp [boundaryValues, adv_cons, eatKw_self, eatSym_self, h1, h2, hr]

theorem periodsLoop_read {us : List (Tok V)} {ps} (h : LooseOf PeriodOf us ps) (rest : List (Tok V)) :
    ∀ n, us.length < n → periodsLoop n (us ++ .sym .semi :: rest) = .ok (ps, .sym .semi :: rest) := by
  induction h with
  | nil =>
    intro n hn
    obtain ⟨k, rfl⟩ := pred_of_lt hn
    simp [periodsLoop]
  | @cons cs us a vs as hc ha ht ih =>
    intro n hn
    obtain ⟨k, rfl⟩ := pred_of_lt hn
    have h2 : isSym .colon (vs ++ .sym .semi :: rest) = false := by
      cases ht with
      | nil => rfl
      | cons hc' ha' _ => cases hc' <;> cases ha' <;> rfl
    have h := ih k (by cases ha <;> simp at hn <;> omega)
    cases hc <;> cases ha <;> simp [periodsLoop, eatNum, adv_cons, h, h2, isSym_cons_self]

theorem valuesLoop_read {pc : PCfg V} {us : List (Tok V)} {es} (h : LooseOf (ValueOf pc) us es) (rest : List (Tok V)) :
    ∀ n, us.length < n → valuesLoop pc n (us ++ .sym .semi :: rest) = .ok (es, .sym .semi :: rest) := by
  induction h with
  | nil =>
    intro n hn
    obtain ⟨k, rfl⟩ := pred_of_lt hn
    simp [valuesLoop]
  | @cons cs us a vs as hc ha ht ih =>
    intro n hn
    obtain ⟨k, rfl⟩ := pred_of_lt hn
    have h := ih k (by cases ha <;> simp at hn <;> omega)
    cases ha with
    | num => cases hc <;> simp [valuesLoop, adv_cons, h]
    | paren hd =>
      have he := parseExpr_read hd (s := .rpare) (by decide) (vs ++ .sym .semi :: rest)
      cases hc <;> simp [valuesLoop, adv_cons, eatSym_self, h, he]

theorem shock_read {pc : PCfg V} {us : List (Tok V)} {s} (h : ShockOf pc us s) {rest : List (Tok V)} :
    ∃ vs, us = vs ++ [.sym .semi] ∧ shock pc (vs ++ .sym .semi :: rest) = .ok (s, .sym .semi :: rest) := by
  cases h with
  | @corr x y us e h =>
    have he := parseExpr_read h (s := .semi) (by decide) rest
    exact ⟨_, rfl, by simp [shock, pairShock, isKw, adv_cons, eatId, eatSym_self, he]⟩
  | @cov x y us e h =>
    have he := parseExpr_read h (s := .semi) (by decide) rest
    exact ⟨_, rfl, by simp [shock, pairShock, isKw, isSym, adv_cons, eatId, eatSym_self, he]⟩
  | @variance x us e h =>
    have he := parseExpr_read h (s := .semi) (by decide) rest
    exact ⟨_, rfl, by simp [shock, varianceShock, isKw, isSym, adv_cons, eatId, eatSym_self, he]⟩
  | @stderr x us e h =>
    have he := parseExpr_read h (s := .semi) (by decide) rest
    exact ⟨_, rfl, by simp [shock, stderrShock, isKw, isSym, adv_cons, eatId, eatSym_self, eatKw_self, he]⟩
  | @det x us ps vs es hp hv =>
    have h1 := periodsLoop_read hp (.kw "values" :: (vs ++ .sym .semi :: rest))
      ((us ++ .sym .semi :: .kw "values" :: (vs ++ .sym .semi :: rest)).length + 1) (by simp; omega)
    have h2 := valuesLoop_read hv rest ((vs ++ .sym .semi :: rest).length + 1) (by simp; omega)
    simp only [List.length_append, List.length_cons] at h1 h2
    exact ⟨_, rfl, by
      simp [shock, detShock, isKw, isSym, adv_cons, eatId, eatSym_self, eatKw_self, h1, h2]⟩

theorem shocksLoop_read {pc : PCfg V} {us : List (Tok V)} {ss} (h : SeqOf (ShockOf pc) us ss) (rest : List (Tok V)) :
    ∀ n, us.length < n → shocksLoop pc n (us ++ .kw "end" :: rest) = .ok (ss, .kw "end" :: rest) := by
  induction h with
  | nil =>
    intro n hn
    obtain ⟨k, rfl⟩ := pred_of_lt hn
    simp [shocksLoop, isKw]
  | @cons us a vs as ha ht ih =>
    intro n hn
    obtain ⟨k, rfl⟩ := pred_of_lt hn
    have hk : ∀ r : List (Tok V), (isKw "corr" (us ++ r) || isKw "var" (us ++ r)) = true := by
      intro r; cases ha <;> simp [isKw]
    obtain ⟨ws, rfl, h'⟩ := shock_read ha (rest := vs ++ .kw "end" :: rest)
    have h := ih k (by simp at hn; omega)
    have hk := hk (vs ++ .kw "end" :: rest)
    simp only [List.append_assoc, List.cons_append, List.nil_append] at hk ⊢
    unfold shocksLoop
    rw [if_pos hk, h']
    simp [eatSym_self, h]

theorem shocksBlock_read {pc : PCfg V} {us vs : List (Tok V)} {as bs} (k : String) (ha : ArgsOf pc us as)
    (hb : SeqOf (ShockOf pc) vs bs) {rest : List (Tok V)} (hr : rest ≠ []) :
    shocksBlock pc (.kw k :: (us ++ .sym .semi :: (vs ++ .kw "end" :: .sym .semi :: rest))) = .ok (⟨as, bs⟩, rest) := by
  have h1 := optArgs_read ha (vs ++ .kw "end" :: .sym .semi :: rest)
  have h2 := shocksLoop_read hb (.sym .semi :: rest) ((vs ++ .kw "end" :: .sym .semi :: rest).length + 1) (by simp; omega)
  simp only [List.length_append, List.length_cons] at h2
  simp [shocksBlock, adv_cons, eatKw_self, eatSym_self, h1, h2, hr]

/-- fields of the actions after reading more blocks -/
def Actions.upd (acc : Actions V) (bs : List (Block V)) : Actions V :=
  ⟨(lastBound "initval" bs).or acc.initval, (lastBound "endval" bs).or acc.endval,
    (lastBound "histval" bs).or acc.histval, (lastShocks bs).or acc.shocks⟩

theorem getLast?_cons_or {α : Type} (a : α) (l : List α) : (a :: l).getLast? = l.getLast?.or (some a) := by
  cases l with
  | nil => rfl
  | cons b l => simp [List.getLast?_cons]

theorem upd_bound (acc : Actions V) (k : String) (b : Bound V) (bs : List (Block V)) :
    acc.upd (.bound k b :: bs) = (⟨if k = "initval" then some b else acc.initval,
      if k = "endval" then some b else acc.endval, if k = "histval" then some b else acc.histval,
      acc.shocks⟩ : Actions V).upd bs := by
  have : ∀ k', lastBound k' (.bound k b :: bs) = (lastBound k' bs).or (if k = k' then some b else none) := by
    intro k'
    by_cases h : k = k'
    · simp [lastBound, h, getLast?_cons_or]
    · simp [lastBound, h]
  simp only [Actions.upd, this, lastShocks, List.filterMap_cons, Option.or_assoc]
  congr 1 <;> split <;> simp

theorem upd_shocks (acc : Actions V) (s : Shocks V) (bs : List (Block V)) :
    acc.upd (.shocks s :: bs) = ({ acc with shocks := some s } : Actions V).upd bs := by
  simp [Actions.upd, lastBound, lastShocks, getLast?_cons_or, Option.or_assoc]

theorem actionsLoop_read {pc : PCfg V} {us : List (Tok V)} {bs} (h : SeqOf (BlockOf pc) us bs) (rest : List (Tok V)) :
    ∀ n acc, us.length < n → actionsLoop pc n acc (us ++ .eof :: rest) = .ok (acc.upd bs) := by
  induction h with
  | nil =>
    intro n acc hn
    obtain ⟨k, rfl⟩ := pred_of_lt hn
    simp [actionsLoop, Actions.upd, lastBound, lastShocks]
  | @cons us a vs as ha ht ih =>
    intro n acc hn
    obtain ⟨j, rfl⟩ := pred_of_lt hn
    cases ha with
    | @bound k us' as' vs' bs' hk h1 h2 =>
      have h' := boundaryValues_read k h1 h2 (rest := vs ++ .eof :: rest) (by simp)
      have h := fun acc => ih j acc (by simp at hn; omega)
      rw [upd_bound]
      simp only [List.mem_cons, List.not_mem_nil, or_false] at hk
      rcases hk with rfl | rfl | rfl <;> simp [actionsLoop, h', h]
    | @shocks us' as' vs' bs' h1 h2 =>
      have h' := shocksBlock_read "shocks" h1 h2 (rest := vs ++ .eof :: rest) (by simp)
      have h := fun acc => ih j acc (by simp at hn; omega)
      rw [upd_shocks]
      simp [actionsLoop, h', h]

theorem parseModel_read {pc : PCfg V} {ts : List (Tok V)} {mf} (h : FileOf pc ts mf) (rest : List (Tok V)) :
    parseModel pc (ts ++ .eof :: rest) = .ok mf := by
  obtain @⟨us, ds, ps, vs, m, ws, bs, hp, hm, hb⟩ := h
  have h3 := actionsLoop_read hb rest ((ws ++ .eof :: rest).length + 1) ⟨none, none, none, none⟩ (by simp; omega)
  have h2 := modelDefinition_read hm (rest := ws ++ .eof :: rest) (by simp)
  obtain @⟨us', as, vs', ss, ha, hs⟩ := hm
  simp only [List.length_append, List.length_cons, List.append_assoc, List.cons_append, List.nil_append] at h2 h3
  have h1 := preambleLoop_read hp (us' ++ .sym .semi :: (vs' ++ .kw "end" :: .sym .semi :: (ws ++ .eof :: rest)))
    ((us ++ (.kw "model" :: us' ++ .sym .semi :: (vs' ++ .kw "end" :: .sym .semi :: (ws ++ .eof :: rest)))).length + 1)
    (by simp; omega)
  simp only [List.length_append, List.length_cons, List.append_assoc, List.cons_append, List.nil_append] at h1
  simp [parseModel, preamble, h1, h2, h3, Actions.upd]

/-! ### Soundness -/

theorem parseExpr_sound {pc : PCfg V} {ts : List (Tok V)} {r} (hN : NoCallAfterParen ts) (h : parseExpr pc ts = .ok r) :
    ∃ us, ts = us ++ r.2 ∧ Derives false pc us r.1 := by
  obtain ⟨us, e, -, d, -⟩ := C11_sound_partial pc false ts r.1 r.2 hN h
  exact ⟨us, e, d⟩

theorem parseMExpr_sound {pc : PCfg V} {ts : List (Tok V)} {r} (hN : NoCallAfterParen ts) (h : parseMExpr pc ts = .ok r) :
    ∃ us, ts = us ++ r.2 ∧ Derives true pc us r.1 := by
  obtain ⟨us, e, -, d, -⟩ := C11_sound_partial pc true ts r.1 r.2 hN h
  exact ⟨us, e, d⟩

theorem assignment_sound {pc : PCfg V} {ts : List (Tok V)} {r} (hN : NoCallAfterParen ts) (h : assignment pc ts = .ok r) :
    ∃ us, ts = us ++ r.2 ∧ AssignOf pc us r.1 := by
  unfold assignment at h
  obtain ⟨a, h1, h⟩ := Out.bind_ok_iff.mp h
  obtain ⟨b, h2, h⟩ := Out.bind_ok_iff.mp h
  obtain ⟨c, h3, h⟩ := Out.bind_ok_iff.mp h
  obtain ⟨d, h4, h⟩ := Out.bind_ok_iff.mp h
  cases h
  obtain ⟨e1, _⟩ := eatId_inv h1
  obtain ⟨e2, _⟩ := eatSym_inv h2
  rw [e1, e2] at hN
  obtain ⟨us, e3, hu⟩ := parseExpr_sound hN.tail.tail h3
  obtain ⟨e4, _⟩ := eatSym_inv h4
  exact ⟨_, by rw [e1, e2, e3, e4]; simp, .mk hu⟩

theorem declNames_sound (n : Nat) : ∀ (ts : List (Tok V)) r, declNames n ts = .ok r →
    ∃ us, ts = us ++ r.2 ∧ NamesOf us r.1 := by
  induction n with
  | zero => intro ts r h; cases h
  | succ n ih =>
    intro ts r h
    unfold declNames at h
    split at h
    · obtain ⟨a, h1, h⟩ := Out.bind_ok_iff.mp h
      obtain ⟨b, h2, h⟩ := Out.bind_ok_iff.mp h
      obtain ⟨c, h3, h⟩ := Out.bind_ok_iff.mp h
      cases h
      obtain ⟨us, e, hd⟩ := ih _ _ h3
      obtain ⟨e2, _⟩ := eatId_inv h2
      obtain ⟨t, e1, _⟩ := adv_suffix h1
      cases e1
      exact ⟨_, by rw [e2, e]; rfl, .comma hd⟩
    · obtain ⟨b, h2, h⟩ := Out.bind_ok_iff.mp h
      obtain ⟨c, h3, h⟩ := Out.bind_ok_iff.mp h
      cases h
      obtain ⟨us, e, hd⟩ := ih _ _ h3
      obtain ⟨e2, _⟩ := eatId_inv h2
      exact ⟨_, by rw [e2, e]; rfl, .name hd⟩
    · cases h
      exact ⟨[], rfl, .nil⟩

theorem typeDecl_sound {k : String} {ts : List (Tok V)} {r} (h : typeDecl k (.kw k :: ts) = .ok r) :
    ∃ us xs, ts = us ++ .sym .semi :: r.2 ∧ NamesOf us xs ∧ r.1 = xs.map (fun x => (x, k)) := by
  unfold typeDecl at h
  obtain ⟨a, h1, h⟩ := Out.bind_ok_iff.mp h
  obtain ⟨b, h2, h⟩ := Out.bind_ok_iff.mp h
  obtain ⟨c, h3, h⟩ := Out.bind_ok_iff.mp h
  cases h
  obtain ⟨t, e1, _⟩ := adv_suffix h1
  cases e1
  obtain ⟨us, e2, hd⟩ := declNames_sound _ _ _ h2
  obtain ⟨e3, _⟩ := eatSym_inv h3
  exact ⟨us, _, by rw [e2, e3], hd, rfl⟩

theorem preambleLoop_sound {pc : PCfg V} (n : Nat) : ∀ (ts : List (Tok V)) r, NoCallAfterParen ts →
    preambleLoop pc n ts = .ok r → ∃ us, ts = us ++ r.2 ∧ PreOf pc us r.1.1 r.1.2 := by
  induction n with
  | zero => intro ts r _ h; cases h
  | succ n ih =>
    intro ts r hN h
    unfold preambleLoop at h
    split at h
    · cases h
    · rename_i k ts'
      split at h
      · cases h; exact ⟨[], rfl, .nil⟩
      · split at h
        · rename_i hk
          obtain ⟨a, h1, h⟩ := Out.bind_ok_iff.mp h
          obtain ⟨b, h2, h⟩ := Out.bind_ok_iff.mp h
          cases h
          obtain ⟨us, xs, e1, hx, e2⟩ := typeDecl_sound h1
          have hN' : NoCallAfterParen a.2 := by
            rw [e1] at hN
            exact (NoCallAfterParen.append hN.tail).tail
          obtain ⟨vs, e3, hp⟩ := ih _ _ hN' h2
          refine ⟨.kw k :: us ++ .sym .semi :: vs, by rw [e1, e3]; simp, ?_⟩
          rw [e2]
          exact .decl hk hx hp
        · cases h
    · obtain ⟨a, h1, h⟩ := Out.bind_ok_iff.mp h
      obtain ⟨b, h2, h⟩ := Out.bind_ok_iff.mp h
      cases h
      obtain ⟨us, e1, ha⟩ := assignment_sound hN h1
      rw [e1] at hN
      obtain ⟨vs, e3, hp⟩ := ih _ _ hN.append h2
      exact ⟨us ++ vs, by rw [e1, e3]; simp, .assign ha hp⟩
    · cases h

theorem singleArg_sound {pc : PCfg V} {ts : List (Tok V)} {r} (hN : NoCallAfterParen ts) (h : singleArg pc ts = .ok r) :
    ∃ us, ts = us ++ r.2 ∧ ArgOf pc us r.1 := by
  unfold singleArg at h
  obtain ⟨a, h1, h⟩ := Out.bind_ok_iff.mp h
  obtain ⟨e1, _⟩ := eatId_inv h1
  split at h
  · rename_i hs
    obtain ⟨b, h2, h⟩ := Out.bind_ok_iff.mp h
    obtain ⟨t, e2, _⟩ := adv_suffix h2
    obtain ⟨r0, e0⟩ := isSym_inv hs
    rw [e2] at e0; cases e0
    split at h
    · obtain ⟨c, h3, h⟩ := Out.bind_ok_iff.mp h
      obtain ⟨t, e3, _⟩ := adv_suffix h3
      cases h; cases e3
      exact ⟨_, by rw [e1, e2]; rfl, .str⟩
    · obtain ⟨c, h3, h⟩ := Out.bind_ok_iff.mp h
      obtain ⟨t, e3, _⟩ := adv_suffix h3
      cases h; cases e3
      exact ⟨_, by rw [e1, e2]; rfl, .id⟩
    · rename_i hid
      obtain ⟨c, h3, h⟩ := Out.bind_ok_iff.mp h
      cases h
      rw [e1, e2] at hN
      obtain ⟨us, e3, hu⟩ := parseExpr_sound hN.tail.tail h3
      refine ⟨.id a.1 :: .sym .equals :: us, by rw [e1, e2, e3]; rfl, .expr hu ?_⟩
      rintro y vs rfl
      exact hid _ _ e3
  · cases h
    exact ⟨_, by rw [e1]; rfl, .bare⟩

theorem argLoop_sound {pc : PCfg V} (n : Nat) : ∀ (ts : List (Tok V)) r, NoCallAfterParen ts →
    argLoop pc n ts = .ok r → ∃ us, ts = us ++ r.2 ∧ CommaTail (ArgOf pc) us r.1 := by
  induction n with
  | zero => intro ts r _ h; cases h
  | succ n ih =>
    intro ts r hN h
    unfold argLoop at h
    split at h
    · rename_i hs
      obtain ⟨a, h1, h⟩ := Out.bind_ok_iff.mp h
      obtain ⟨b, h2, h⟩ := Out.bind_ok_iff.mp h
      obtain ⟨c, h3, h⟩ := Out.bind_ok_iff.mp h
      cases h
      obtain ⟨r0, e0⟩ := isSym_inv hs
      obtain ⟨t, e1, _⟩ := adv_suffix h1
      rw [e1] at e0; cases e0
      rw [e1] at hN
      obtain ⟨us, e2, hu⟩ := singleArg_sound hN.tail h2
      rw [e2] at hN
      obtain ⟨vs, e3, hv⟩ := ih _ _ hN.tail.append h3
      exact ⟨_, by rw [e1, e2, e3]; simp, .cons hu hv⟩
    · cases h; exact ⟨[], rfl, .nil⟩

theorem optArgs_sound {pc : PCfg V} {ts : List (Tok V)} {r} (hN : NoCallAfterParen ts) (h : optArgs pc ts = .ok r) :
    ∃ us, ts = us ++ r.2 ∧ ArgsOf pc us r.1 := by
  unfold optArgs at h
  split at h
  · rename_i hs
    obtain ⟨a, h1, h⟩ := Out.bind_ok_iff.mp h
    obtain ⟨b, h2, h⟩ := Out.bind_ok_iff.mp h
    obtain ⟨c, h3, h⟩ := Out.bind_ok_iff.mp h
    obtain ⟨d, h4, h⟩ := Out.bind_ok_iff.mp h
    cases h
    obtain ⟨r0, e0⟩ := isSym_inv hs
    obtain ⟨t, e1, _⟩ := adv_suffix h1
    rw [e1] at e0; cases e0
    rw [e1] at hN
    obtain ⟨us, e2, hu⟩ := singleArg_sound hN.tail h2
    rw [e2] at hN
    obtain ⟨vs, e3, hv⟩ := argLoop_sound _ _ _ hN.tail.append h3
    obtain ⟨e4, _⟩ := eatSym_inv h4
    exact ⟨_, by rw [e1, e2, e3, e4]; simp, .some hu hv⟩
  · cases h; exact ⟨[], rfl, .none⟩

theorem singleTag_sound {ts : List (Tok V)} {r} (h : singleTag ts = .ok r) :
    ∃ us, ts = us ++ r.2 ∧ TagOf us r.1 := by
  unfold singleTag at h
  obtain ⟨a, h1, h⟩ := Out.bind_ok_iff.mp h
  obtain ⟨e1, _⟩ := eatId_inv h1
  split at h
  · rename_i hs
    obtain ⟨b, h2, h⟩ := Out.bind_ok_iff.mp h
    obtain ⟨t, e2, _⟩ := adv_suffix h2
    obtain ⟨r0, e0⟩ := isSym_inv hs
    rw [e2] at e0; cases e0
    split at h
    · obtain ⟨c, h3, h⟩ := Out.bind_ok_iff.mp h
      obtain ⟨t, e3, _⟩ := adv_suffix h3
      cases h; cases e3
      exact ⟨_, by rw [e1, e2]; rfl, .str⟩
    · cases h
  · cases h
    exact ⟨_, by rw [e1]; rfl, .bare⟩

theorem tagLoop_sound (n : Nat) : ∀ (ts : List (Tok V)) r, tagLoop n ts = .ok r →
    ∃ us, ts = us ++ r.2 ∧ CommaTail TagOf us r.1 := by
  induction n with
  | zero => intro ts r h; cases h
  | succ n ih =>
    intro ts r h
    unfold tagLoop at h
    split at h
    · rename_i hs
      obtain ⟨a, h1, h⟩ := Out.bind_ok_iff.mp h
      obtain ⟨b, h2, h⟩ := Out.bind_ok_iff.mp h
      obtain ⟨c, h3, h⟩ := Out.bind_ok_iff.mp h
      cases h
      obtain ⟨r0, e0⟩ := isSym_inv hs
      obtain ⟨t, e1, _⟩ := adv_suffix h1
      rw [e1] at e0; cases e0
      obtain ⟨us, e2, hu⟩ := singleTag_sound h2
      obtain ⟨vs, e3, hv⟩ := ih _ _ h3
      exact ⟨_, by rw [e1, e2, e3]; simp, .cons hu hv⟩
    · cases h; exact ⟨[], rfl, .nil⟩

theorem tagList_sound {ts : List (Tok V)} {r} (h : tagList ts = .ok r) :
    ∃ us vs a as, ts = .sym .lbracket :: us ++ vs ++ .sym .rbracket :: r.2 ∧ TagOf us a ∧ CommaTail TagOf vs as ∧
      r.1 = a :: as := by
  unfold tagList at h
  obtain ⟨a, h1, h⟩ := Out.bind_ok_iff.mp h
  obtain ⟨b, h2, h⟩ := Out.bind_ok_iff.mp h
  obtain ⟨c, h3, h⟩ := Out.bind_ok_iff.mp h
  obtain ⟨d, h4, h⟩ := Out.bind_ok_iff.mp h
  cases h
  obtain ⟨e1, _⟩ := eatSym_inv h1
  obtain ⟨us, e2, hu⟩ := singleTag_sound h2
  obtain ⟨vs, e3, hv⟩ := tagLoop_sound _ _ _ h3
  obtain ⟨e4, _⟩ := eatSym_inv h4
  exact ⟨_, _, _, _, by rw [e1, e2, e3, e4]; simp, hu, hv, rfl⟩

theorem modelExpression_sound {pc : PCfg V} {ts : List (Tok V)} {r} (hN : NoCallAfterParen ts)
    (h : modelExpression pc ts = .ok r) : ∃ us, ts = us ++ r.2 ∧ EqOf pc us r.1 := by
  unfold modelExpression at h
  obtain ⟨a, h1, h⟩ := Out.bind_ok_iff.mp h
  obtain ⟨us, e1, hu⟩ := parseMExpr_sound hN h1
  split at h
  · rename_i hs
    obtain ⟨b, h2, h⟩ := Out.bind_ok_iff.mp h
    obtain ⟨c, h3, h⟩ := Out.bind_ok_iff.mp h
    cases h
    obtain ⟨r0, e0⟩ := isSym_inv hs
    obtain ⟨t, e2, _⟩ := adv_suffix h2
    rw [e2] at e0; cases e0
    rw [e1, e2] at hN
    obtain ⟨vs, e3, hv⟩ := parseMExpr_sound hN.append.tail h3
    exact ⟨_, by rw [e1, e2, e3]; simp, .both hu hv⟩
  · cases h; exact ⟨us, e1, .left hu⟩

theorem modelStatement_sound {pc : PCfg V} {ts : List (Tok V)} {r} (hN : NoCallAfterParen ts)
    (h : modelStatement pc ts = .ok r) : ∃ us, ts = us ++ r.2 ∧ StmtOf pc us r.1 := by
  unfold modelStatement at h
  split at h
  · obtain ⟨a, h1, h⟩ := Out.bind_ok_iff.mp h
    obtain ⟨b, h2, h⟩ := Out.bind_ok_iff.mp h
    cases h
    unfold localDecl at h1
    obtain ⟨c, h3, h1⟩ := Out.bind_ok_iff.mp h1
    obtain ⟨d, h4, h1⟩ := Out.bind_ok_iff.mp h1
    obtain ⟨e, h5, h1⟩ := Out.bind_ok_iff.mp h1
    obtain ⟨f, h6, h1⟩ := Out.bind_ok_iff.mp h1
    cases h1
    obtain ⟨e3, _⟩ := eatSym_inv h3
    obtain ⟨e4, _⟩ := eatId_inv h4
    obtain ⟨e5, _⟩ := eatSym_inv h5
    rw [e3, e4, e5] at hN
    obtain ⟨us, e6, hu⟩ := parseMExpr_sound hN.tail.tail.tail h6
    obtain ⟨e7, _⟩ := eatSym_inv h2
    dsimp only at e7
    exact ⟨_, by rw [e3, e4, e5, e6, e7]; simp, .loc hu⟩
  · split at h
    · obtain ⟨a, h1, h⟩ := Out.bind_ok_iff.mp h
      obtain ⟨b, h2, h⟩ := Out.bind_ok_iff.mp h
      obtain ⟨c, h3, h⟩ := Out.bind_ok_iff.mp h
      cases h
      obtain ⟨us, vs, t, ts', e1, hu, hv, et⟩ := tagList_sound h1
      rw [e1] at hN
      obtain ⟨ws, e2, hw⟩ := modelExpression_sound hN.append.tail h2
      obtain ⟨e3, _⟩ := eatSym_inv h3
      refine ⟨.sym .lbracket :: us ++ vs ++ .sym .rbracket :: ws ++ [.sym .semi], by rw [e1, e2, e3]; simp, ?_⟩
      dsimp only
      rw [et]
      exact .tagged hu hv hw
    · obtain ⟨b, h2, h⟩ := Out.bind_ok_iff.mp h
      obtain ⟨c, h3, h⟩ := Out.bind_ok_iff.mp h
      cases h
      obtain ⟨ws, e2, hw⟩ := modelExpression_sound hN h2
      obtain ⟨e3, _⟩ := eatSym_inv h3
      exact ⟨_, by rw [e2, e3]; simp, .plain hw⟩

theorem modelLoop_sound {pc : PCfg V} (n : Nat) : ∀ (ts : List (Tok V)) r, NoCallAfterParen ts →
    modelLoop pc n ts = .ok r → ∃ us, ts = us ++ r.2 ∧ SeqOf (StmtOf pc) us r.1 := by
  induction n with
  | zero => intro ts r _ h; cases h
  | succ n ih =>
    intro ts r hN h
    unfold modelLoop at h
    split at h
    · cases h; exact ⟨[], rfl, .nil⟩
    · obtain ⟨b, h2, h⟩ := Out.bind_ok_iff.mp h
      obtain ⟨c, h3, h⟩ := Out.bind_ok_iff.mp h
      cases h
      obtain ⟨us, e2, hu⟩ := modelStatement_sound hN h2
      rw [e2] at hN
      obtain ⟨vs, e3, hv⟩ := ih _ _ hN.append h3
      exact ⟨_, by rw [e2, e3]; simp, .cons hu hv⟩

theorem modelDefinition_sound {pc : PCfg V} {ts : List (Tok V)} {r} (hN : NoCallAfterParen ts)
    (h : modelDefinition pc ts = .ok r) : ∃ us, ts = us ++ r.2 ∧ ModelOf pc us r.1 := by
  unfold modelDefinition at h
  obtain ⟨a, h1, h⟩ := Out.bind_ok_iff.mp h
  obtain ⟨b, h2, h⟩ := Out.bind_ok_iff.mp h
  obtain ⟨c, h3, h⟩ := Out.bind_ok_iff.mp h
  obtain ⟨d, h4, h⟩ := Out.bind_ok_iff.mp h
  obtain ⟨e, h5, h⟩ := Out.bind_ok_iff.mp h
  obtain ⟨f, h6, h⟩ := Out.bind_ok_iff.mp h
  cases h
  obtain ⟨e1, _⟩ := eatKw_inv h1
  rw [e1] at hN
  obtain ⟨us, e2, hu⟩ := optArgs_sound hN.tail h2
  obtain ⟨e3, _⟩ := eatSym_inv h3
  rw [e2, e3] at hN
  obtain ⟨vs, e4, hv⟩ := modelLoop_sound _ _ _ hN.tail.append.tail h4
  obtain ⟨e5, _⟩ := eatKw_inv h5
  obtain ⟨e6, _⟩ := eatSym_inv h6
  exact ⟨_, by rw [e1, e2, e3, e4, e5, e6]; simp, .mk hu hv⟩

theorem boundLoop_sound {pc : PCfg V} (n : Nat) : ∀ (ts : List (Tok V)) r, NoCallAfterParen ts →
    boundLoop pc n ts = .ok r → ∃ us, ts = us ++ r.2 ∧ SeqOf (AssignOf pc) us r.1 := by
  induction n with
  | zero => intro ts r _ h; cases h
  | succ n ih =>
    intro ts r hN h
    unfold boundLoop at h
    split at h
    · cases h; exact ⟨[], rfl, .nil⟩
    · obtain ⟨b, h2, h⟩ := Out.bind_ok_iff.mp h
      obtain ⟨c, h3, h⟩ := Out.bind_ok_iff.mp h
      cases h
      obtain ⟨us, e2, hu⟩ := assignment_sound hN h2
      rw [e2] at hN
      obtain ⟨vs, e3, hv⟩ := ih _ _ hN.append h3
      exact ⟨_, by rw [e2, e3]; simp, .cons hu hv⟩

theorem boundaryValues_sound {pc : PCfg V} {k : String} {ts : List (Tok V)} {r} (hk : k ∈ ["initval", "endval", "histval"])
    (hN : NoCallAfterParen ts) (h : boundaryValues pc (.kw k :: ts) = .ok r) :
    ∃ us, .kw k :: ts = us ++ r.2 ∧ BlockOf pc us (.bound k r.1) := by
  unfold boundaryValues at h
  obtain ⟨a, h1, h⟩ := Out.bind_ok_iff.mp h
  obtain ⟨b, h2, h⟩ := Out.bind_ok_iff.mp h
  obtain ⟨c, h3, h⟩ := Out.bind_ok_iff.mp h
  obtain ⟨d, h4, h⟩ := Out.bind_ok_iff.mp h
  obtain ⟨e, h5, h⟩ := Out.bind_ok_iff.mp h
  obtain ⟨f, h6, h⟩ := Out.bind_ok_iff.mp h
  cases h
  obtain ⟨t, e1, _⟩ := adv_suffix h1
  cases e1
  obtain ⟨us, e2, hu⟩ := optArgs_sound hN h2
  obtain ⟨e3, _⟩ := eatSym_inv h3
  rw [e2, e3] at hN
  obtain ⟨vs, e4, hv⟩ := boundLoop_sound _ _ _ hN.append.tail h4
  obtain ⟨e5, _⟩ := eatKw_inv h5
  obtain ⟨e6, _⟩ := eatSym_inv h6
  exact ⟨_, by rw [e2, e3, e4, e5, e6]; simp, .bound hk hu hv⟩

theorem periodsLoop_sound (n : Nat) : ∀ (ts : List (Tok V)) r,
    periodsLoop n ts = .ok r → ∃ us, ts = us ++ r.2 ∧ LooseOf PeriodOf us r.1 := by
  induction n with
  | zero => intro ts r h; cases h
  | succ n ih =>
    intro ts r h
    have key : ∀ (ts : List (Tok V)) r, (do
      let s ← eatNum ts
      if isSym .colon s.2 then do
        let r ← adv s.2
        let e ← eatNum r
        let rest ← periodsLoop n e.2
        Out.ok ((s.1, e.1) :: rest.1, rest.2)
      else do
        let rest ← periodsLoop n s.2
        Out.ok ((s.1, s.1) :: rest.1, rest.2)) = .ok r →
        ∃ us vs p ps, ts = us ++ vs ++ r.2 ∧ PeriodOf us p ∧ LooseOf PeriodOf vs ps ∧ r.1 = p :: ps := by
      intro ts r h
      obtain ⟨a, h1, h⟩ := Out.bind_ok_iff.mp h
      obtain ⟨e1, _⟩ := eatNum_inv h1
      split at h
      · rename_i hs
        obtain ⟨b, h2, h⟩ := Out.bind_ok_iff.mp h
        obtain ⟨c, h3, h⟩ := Out.bind_ok_iff.mp h
        obtain ⟨d, h4, h⟩ := Out.bind_ok_iff.mp h
        cases h
        obtain ⟨r0, e0⟩ := isSym_inv hs
        obtain ⟨t, e2, _⟩ := adv_suffix h2
        rw [e2] at e0; cases e0
        obtain ⟨e3, _⟩ := eatNum_inv h3
        obtain ⟨vs, e4, hv⟩ := ih _ _ h4
        exact ⟨_, _, _, _, by rw [e1, e2, e3, e4]; simp, .range, hv, rfl⟩
      · obtain ⟨d, h4, h⟩ := Out.bind_ok_iff.mp h
        cases h
        obtain ⟨vs, e4, hv⟩ := ih _ _ h4
        exact ⟨_, _, _, _, by rw [e1, e4]; simp, .one, hv, rfl⟩
    unfold periodsLoop at h
    dsimp only at h
    split at h
    · obtain ⟨a, h1, h⟩ := Out.bind_ok_iff.mp h
      obtain ⟨t, e1, _⟩ := adv_suffix h1
      cases e1
      obtain ⟨us, vs, p, ps, e, hp, hv, er⟩ := key _ _ h
      rw [er]
      exact ⟨_, by rw [e]; simp, .cons .some hp hv⟩
    · obtain ⟨us, vs, p, ps, e, hp, hv, er⟩ := key _ _ h
      rw [er]
      exact ⟨us ++ vs, by rw [e], .cons (cs := []) .none hp hv⟩
    · cases h; exact ⟨[], rfl, .nil⟩

theorem valuesLoop_sound {pc : PCfg V} (n : Nat) : ∀ (ts : List (Tok V)) r, NoCallAfterParen ts →
    valuesLoop pc n ts = .ok r → ∃ us, ts = us ++ r.2 ∧ LooseOf (ValueOf pc) us r.1 := by
  induction n with
  | zero => intro ts r _ h; cases h
  | succ n ih =>
    intro ts r hN h
    have key1 : ∀ v (ts : List (Tok V)) r, NoCallAfterParen (.num v :: ts) → (do
        let r ← adv (.num v :: ts)
        let rest ← valuesLoop pc n r
        Out.ok (Expr.num v :: rest.1, rest.2)) = .ok r →
        ∃ us vs p ps, .num v :: ts = us ++ vs ++ r.2 ∧ ValueOf pc us p ∧ LooseOf (ValueOf pc) vs ps ∧ r.1 = p :: ps := by
      intro v ts r hN h
      obtain ⟨a, h1, h⟩ := Out.bind_ok_iff.mp h
      obtain ⟨d, h4, h⟩ := Out.bind_ok_iff.mp h
      obtain ⟨t, e1, _⟩ := adv_suffix h1
      cases h; cases e1
      obtain ⟨vs, e4, hv⟩ := ih _ _ hN.tail h4
      exact ⟨[.num v], _, _, _, by rw [e4]; simp, .num, hv, rfl⟩
    have key2 : ∀ (ts : List (Tok V)) r, NoCallAfterParen ts → (do
        let r ← eatSym .lpare ts
        let e ← parseExpr pc r
        let r ← eatSym .rpare e.2
        let rest ← valuesLoop pc n r
        Out.ok (e.1 :: rest.1, rest.2)) = .ok r →
        ∃ us vs p ps, ts = us ++ vs ++ r.2 ∧ ValueOf pc us p ∧ LooseOf (ValueOf pc) vs ps ∧ r.1 = p :: ps := by
      intro ts r hN h
      obtain ⟨a, h1, h⟩ := Out.bind_ok_iff.mp h
      obtain ⟨b, h2, h⟩ := Out.bind_ok_iff.mp h
      obtain ⟨c, h3, h⟩ := Out.bind_ok_iff.mp h
      obtain ⟨d, h4, h⟩ := Out.bind_ok_iff.mp h
      cases h
      obtain ⟨e1, _⟩ := eatSym_inv h1
      rw [e1] at hN
      obtain ⟨us, e2, hu⟩ := parseExpr_sound hN.tail h2
      obtain ⟨e3, _⟩ := eatSym_inv h3
      rw [e2, e3] at hN
      obtain ⟨vs, e4, hv⟩ := ih _ _ hN.tail.append.tail h4
      refine ⟨.sym .lpare :: us ++ [.sym .rpare], vs, _, _, by rw [e1, e2, e3, e4]; simp, .paren hu, hv, rfl⟩
    unfold valuesLoop at h
    dsimp only at h
    split at h
    · rename_i tl
      obtain ⟨a, h1, h⟩ := Out.bind_ok_iff.mp h
      obtain ⟨t, e1, _⟩ := adv_suffix h1
      cases e1
      have : ∃ us vs p ps, tl = us ++ vs ++ r.2 ∧ ValueOf pc us p ∧ LooseOf (ValueOf pc) vs ps ∧ r.1 = p :: ps := by
        split at h
        · exact key1 _ _ _ hN.tail h
        · exact key2 _ _ hN.tail h
      obtain ⟨us, vs, p, ps, e, hp, hv, er⟩ := this
      rw [er]
      exact ⟨_, by rw [e]; simp, .cons .some hp hv⟩
    · obtain ⟨us, vs, p, ps, e, hp, hv, er⟩ := key1 _ _ _ hN h
      rw [er]
      exact ⟨us ++ vs, by rw [e], .cons (cs := []) .none hp hv⟩
    · obtain ⟨us, vs, p, ps, e, hp, hv, er⟩ := key2 _ _ hN h
      rw [er]
      exact ⟨us ++ vs, by rw [e], .cons (cs := []) .none hp hv⟩
    · cases h; exact ⟨[], rfl, .nil⟩

theorem pairShock_sound {pc : PCfg V} {mk} {k : Tok V} {ts : List (Tok V)} {r} (hN : NoCallAfterParen ts)
    (h : pairShock pc mk (k :: ts) = .ok r) : ∃ x y us e, ts = .id x :: .sym .comma :: .id y :: .sym .equals :: us ++ r.2 ∧
      Derives false pc us e ∧ r.1 = mk x y e := by
  unfold pairShock at h
  obtain ⟨a, h1, h⟩ := Out.bind_ok_iff.mp h
  obtain ⟨b, h2, h⟩ := Out.bind_ok_iff.mp h
  obtain ⟨c, h3, h⟩ := Out.bind_ok_iff.mp h
  obtain ⟨d, h4, h⟩ := Out.bind_ok_iff.mp h
  obtain ⟨e, h5, h⟩ := Out.bind_ok_iff.mp h
  obtain ⟨f, h6, h⟩ := Out.bind_ok_iff.mp h
  cases h
  obtain ⟨t, e1, _⟩ := adv_suffix h1
  cases e1
  obtain ⟨e2, _⟩ := eatId_inv h2
  obtain ⟨e3, _⟩ := eatSym_inv h3
  obtain ⟨e4, _⟩ := eatId_inv h4
  obtain ⟨e5, _⟩ := eatSym_inv h5
  rw [e2, e3, e4, e5] at hN
  obtain ⟨us, e6, hu⟩ := parseExpr_sound hN.tail.tail.tail.tail h6
  exact ⟨_, _, _, _, by rw [e2, e3, e4, e5, e6]; rfl, hu, rfl⟩

theorem varianceShock_sound {pc : PCfg V} {k : Tok V} {ts : List (Tok V)} {r} (hN : NoCallAfterParen ts)
    (h : varianceShock pc (k :: ts) = .ok r) : ∃ x us e, ts = .id x :: .sym .equals :: us ++ r.2 ∧
      Derives false pc us e ∧ r.1 = .variance x e := by
  unfold varianceShock at h
  obtain ⟨a, h1, h⟩ := Out.bind_ok_iff.mp h
  obtain ⟨b, h2, h⟩ := Out.bind_ok_iff.mp h
  obtain ⟨e, h5, h⟩ := Out.bind_ok_iff.mp h
  obtain ⟨f, h6, h⟩ := Out.bind_ok_iff.mp h
  cases h
  obtain ⟨t, e1, _⟩ := adv_suffix h1
  cases e1
  obtain ⟨e2, _⟩ := eatId_inv h2
  obtain ⟨e5, _⟩ := eatSym_inv h5
  rw [e2, e5] at hN
  obtain ⟨us, e6, hu⟩ := parseExpr_sound hN.tail.tail h6
  exact ⟨_, _, _, by rw [e2, e5, e6]; rfl, hu, rfl⟩

theorem stderrShock_sound {pc : PCfg V} {k : Tok V} {ts : List (Tok V)} {r} (hN : NoCallAfterParen ts)
    (h : stderrShock pc (k :: ts) = .ok r) : ∃ x us e, ts = .id x :: .sym .semi :: .kw "stderr" :: us ++ r.2 ∧
      Derives false pc us e ∧ r.1 = .stderr x e := by
  unfold stderrShock at h
  obtain ⟨a, h1, h⟩ := Out.bind_ok_iff.mp h
  obtain ⟨b, h2, h⟩ := Out.bind_ok_iff.mp h
  obtain ⟨d, h4, h⟩ := Out.bind_ok_iff.mp h
  obtain ⟨e, h5, h⟩ := Out.bind_ok_iff.mp h
  obtain ⟨f, h6, h⟩ := Out.bind_ok_iff.mp h
  cases h
  obtain ⟨t, e1, _⟩ := adv_suffix h1
  cases e1
  obtain ⟨e2, _⟩ := eatId_inv h2
  obtain ⟨e4, _⟩ := eatSym_inv h4
  obtain ⟨e5, _⟩ := eatKw_inv h5
  rw [e2, e4, e5] at hN
  obtain ⟨us, e6, hu⟩ := parseExpr_sound hN.tail.tail.tail h6
  exact ⟨_, _, _, by rw [e2, e4, e5, e6]; rfl, hu, rfl⟩

theorem detShock_sound {pc : PCfg V} {k : Tok V} {ts : List (Tok V)} {r} (hN : NoCallAfterParen ts)
    (h : detShock pc (k :: ts) = .ok r) : ∃ x us ps vs es,
      ts = .id x :: .sym .semi :: .kw "periods" :: us ++ .sym .semi :: .kw "values" :: vs ++ r.2 ∧
      LooseOf PeriodOf us ps ∧ LooseOf (ValueOf pc) vs es ∧ r.1 = .det x ps es := by
  unfold detShock at h
  obtain ⟨a, h1, h⟩ := Out.bind_ok_iff.mp h
  obtain ⟨b, h2, h⟩ := Out.bind_ok_iff.mp h
  obtain ⟨c, h3, h⟩ := Out.bind_ok_iff.mp h
  obtain ⟨d, h4, h⟩ := Out.bind_ok_iff.mp h
  obtain ⟨e, h5, h⟩ := Out.bind_ok_iff.mp h
  obtain ⟨f, h6, h⟩ := Out.bind_ok_iff.mp h
  obtain ⟨g, h7, h⟩ := Out.bind_ok_iff.mp h
  obtain ⟨i, h8, h⟩ := Out.bind_ok_iff.mp h
  cases h
  obtain ⟨t, e1, _⟩ := adv_suffix h1
  cases e1
  obtain ⟨e2, _⟩ := eatId_inv h2
  obtain ⟨e3, _⟩ := eatSym_inv h3
  obtain ⟨e4, _⟩ := eatKw_inv h4
  obtain ⟨us, e5, hu⟩ := periodsLoop_sound _ _ _ h5
  obtain ⟨e6, _⟩ := eatSym_inv h6
  obtain ⟨e7, _⟩ := eatKw_inv h7
  rw [e2, e3, e4, e5, e6, e7] at hN
  obtain ⟨vs, e8, hv⟩ := valuesLoop_sound _ _ _ hN.tail.tail.tail.append.tail.tail h8
  exact ⟨_, _, _, _, _, by rw [e2, e3, e4, e5, e6, e7, e8]; simp, hu, hv, rfl⟩

theorem shock_sound {pc : PCfg V} {ts : List (Tok V)} {r} (hN : NoCallAfterParen ts)
    (hk : (isKw "corr" ts || isKw "var" ts) = true) (h : shock pc ts = .ok r) :
    ∃ us, ts = us ++ r.2 ∧ ShockOf pc (us ++ [.sym .semi]) r.1 := by
  unfold shock at h
  split at h
  · rename_i hc
    obtain ⟨r0, rfl⟩ := isKw_inv hc
    obtain ⟨x, y, us, e, e1, hd, er⟩ := pairShock_sound hN.tail h
    rw [er]
    exact ⟨.kw "corr" :: .id x :: .sym .comma :: .id y :: .sym .equals :: us, by rw [e1]; rfl, .corr hd⟩
  · rename_i hc
    obtain ⟨r0, rfl⟩ : ∃ r, ts = .kw "var" :: r := by
      apply isKw_inv
      simpa [hc] using hk
    have det : detShock pc (.kw "var" :: r0) = .ok r →
        ∃ us, .kw "var" :: r0 = us ++ r.2 ∧ ShockOf pc (us ++ [.sym .semi]) r.1 := by
      intro h
      obtain ⟨x, us, ps, vs, es, e1, h1, h2, er⟩ := detShock_sound hN.tail h
      rw [er]
      refine ⟨.kw "var" :: .id x :: .sym .semi :: .kw "periods" :: us ++ .sym .semi :: .kw "values" :: vs,
        by rw [e1]; simp, ?_⟩
      have := ShockOf.det (x := x) h1 h2
      simpa using this
    split at h
    · cases h
    · split at h
      · obtain ⟨x, y, us, e, e1, hd, er⟩ := pairShock_sound hN.tail h
        rw [er]
        exact ⟨.kw "var" :: .id x :: .sym .comma :: .id y :: .sym .equals :: us, by rw [e1]; rfl, .cov hd⟩
      · split at h
        · obtain ⟨x, us, e, e1, hd, er⟩ := varianceShock_sound hN.tail h
          rw [er]
          exact ⟨.kw "var" :: .id x :: .sym .equals :: us, by rw [e1]; rfl, .variance hd⟩
        · split at h
          · split at h
            · cases h
            · split at h
              · obtain ⟨x, us, e, e1, hd, er⟩ := stderrShock_sound hN.tail h
                rw [er]
                exact ⟨.kw "var" :: .id x :: .sym .semi :: .kw "stderr" :: us, by rw [e1]; rfl, .stderr hd⟩
              · exact det h
          · exact det h

theorem shocksLoop_sound {pc : PCfg V} (n : Nat) : ∀ (ts : List (Tok V)) r, NoCallAfterParen ts →
    shocksLoop pc n ts = .ok r → ∃ us, ts = us ++ r.2 ∧ SeqOf (ShockOf pc) us r.1 := by
  induction n with
  | zero => intro ts r _ h; cases h
  | succ n ih =>
    intro ts r hN h
    unfold shocksLoop at h
    split at h
    · rename_i hk
      obtain ⟨a, h1, h⟩ := Out.bind_ok_iff.mp h
      obtain ⟨b, h2, h⟩ := Out.bind_ok_iff.mp h
      obtain ⟨c, h3, h⟩ := Out.bind_ok_iff.mp h
      cases h
      obtain ⟨us, e1, hu⟩ := shock_sound hN hk h1
      obtain ⟨e2, _⟩ := eatSym_inv h2
      rw [e1, e2] at hN
      obtain ⟨vs, e3, hv⟩ := ih _ _ hN.append.tail h3
      exact ⟨_, by rw [e1, e2, e3]; simp, .cons hu hv⟩
    · cases h; exact ⟨[], rfl, .nil⟩

theorem shocksBlock_sound {pc : PCfg V} {ts : List (Tok V)} {r}
    (hN : NoCallAfterParen ts) (h : shocksBlock pc (.kw "shocks" :: ts) = .ok r) :
    ∃ us, .kw "shocks" :: ts = us ++ r.2 ∧ BlockOf pc us (.shocks r.1) := by
  unfold shocksBlock at h
  obtain ⟨a, h1, h⟩ := Out.bind_ok_iff.mp h
  obtain ⟨b, h2, h⟩ := Out.bind_ok_iff.mp h
  obtain ⟨c, h3, h⟩ := Out.bind_ok_iff.mp h
  obtain ⟨d, h4, h⟩ := Out.bind_ok_iff.mp h
  obtain ⟨e, h5, h⟩ := Out.bind_ok_iff.mp h
  obtain ⟨f, h6, h⟩ := Out.bind_ok_iff.mp h
  cases h
  obtain ⟨t, e1, _⟩ := adv_suffix h1
  cases e1
  obtain ⟨us, e2, hu⟩ := optArgs_sound hN h2
  obtain ⟨e3, _⟩ := eatSym_inv h3
  rw [e2, e3] at hN
  obtain ⟨vs, e4, hv⟩ := shocksLoop_sound _ _ _ hN.append.tail h4
  obtain ⟨e5, _⟩ := eatKw_inv h5
  obtain ⟨e6, _⟩ := eatSym_inv h6
  exact ⟨_, by rw [e2, e3, e4, e5, e6]; simp, .shocks hu hv⟩

theorem actionsLoop_sound {pc : PCfg V} (n : Nat) : ∀ acc (ts : List (Tok V)) r, NoCallAfterParen ts →
    actionsLoop pc n acc ts = .ok r → ∃ us rest bs, ts = us ++ .eof :: rest ∧ SeqOf (BlockOf pc) us bs ∧ r = acc.upd bs := by
  induction n with
  | zero => intro acc ts r _ h; cases h
  | succ n ih =>
    intro acc ts r hN h
    have key : ∀ k (b : Bound V × List (Tok V)) us, ts = us ++ b.2 → BlockOf pc us (.bound k b.1) → ∀ acc',
        (∀ bs, acc.upd (.bound k b.1 :: bs) = acc'.upd bs) → actionsLoop pc n acc' b.2 = .ok r →
        ∃ us rest bs, ts = us ++ .eof :: rest ∧ SeqOf (BlockOf pc) us bs ∧ r = acc.upd bs := by
      intro k b us e hb acc' ha h
      rw [e] at hN
      obtain ⟨vs, rest, bs, e2, hv, er⟩ := ih _ _ _ hN.append h
      exact ⟨us ++ vs, rest, .bound k b.1 :: bs, by rw [e, e2]; simp, .cons hb hv, by rw [er, ha]⟩
    unfold actionsLoop at h
    split at h
    · cases h
    · cases h
      exact ⟨[], _, [], rfl, .nil, by simp [Actions.upd, lastBound, lastShocks]⟩
    · split at h
      · rename_i hk; subst hk
        obtain ⟨a, h1, h⟩ := Out.bind_ok_iff.mp h
        obtain ⟨us, e, hb⟩ := boundaryValues_sound (by simp) hN.tail h1
        exact key _ a us e hb _ (fun bs => by rw [upd_bound]; simp) h
      · split at h
        · rename_i hk; subst hk
          obtain ⟨a, h1, h⟩ := Out.bind_ok_iff.mp h
          obtain ⟨us, e, hb⟩ := boundaryValues_sound (by simp) hN.tail h1
          exact key _ a us e hb _ (fun bs => by rw [upd_bound]; simp) h
        · split at h
          · rename_i hk; subst hk
            obtain ⟨a, h1, h⟩ := Out.bind_ok_iff.mp h
            obtain ⟨us, e, hb⟩ := boundaryValues_sound (by simp) hN.tail h1
            exact key _ a us e hb _ (fun bs => by rw [upd_bound]; simp) h
          · split at h
            · rename_i hk; subst hk
              obtain ⟨a, h1, h⟩ := Out.bind_ok_iff.mp h
              obtain ⟨us, e, hb⟩ := shocksBlock_sound hN.tail h1
              rw [e] at hN
              obtain ⟨vs, rest, bs, e2, hv, er⟩ := ih _ _ _ hN.append h
              exact ⟨us ++ vs, rest, .shocks a.1 :: bs, by rw [e, e2]; simp, .cons hb hv, by rw [er, upd_shocks]⟩
            · cases h
    · obtain ⟨a, h1, h⟩ := Out.bind_ok_iff.mp h
      cases h
    · cases h

theorem parseModel_sound {pc : PCfg V} {ts : List (Tok V)} {mf} (hN : NoCallAfterParen ts)
    (h : parseModel pc ts = .ok mf) : ∃ us rest, ts = us ++ .eof :: rest ∧ FileOf pc us mf := by
  unfold parseModel preamble at h
  obtain ⟨a, h1, h⟩ := Out.bind_ok_iff.mp h
  obtain ⟨b, h2, h⟩ := Out.bind_ok_iff.mp h
  obtain ⟨c, h3, h⟩ := Out.bind_ok_iff.mp h
  cases h
  obtain ⟨us, e1, hp⟩ := preambleLoop_sound _ _ _ hN h1
  rw [e1] at hN
  obtain ⟨vs, e2, hm⟩ := modelDefinition_sound hN.append h2
  rw [e2] at hN
  obtain ⟨ws, rest, bs, e3, hb, er⟩ := actionsLoop_sound _ _ _ _ hN.append.append h3
  refine ⟨us ++ vs ++ ws, rest, by rw [e1, e2, e3]; simp, ?_⟩
  rw [er]
  have := FileOf.mk hp hm hb
  simpa [Actions.upd] using this

end Pynare
