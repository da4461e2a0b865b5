import Verif.Lemmas.LexerRun
/-! The lexer on written tokens and layout. -/

namespace Pynare

variable {V : Type}

/-- not starting with white space -/
def NoWs (cfg : LexCfg V) (x : List Char) : Prop := ∀ c, x.head? = some c → cfg.isSpace c = false

theorem lineComment_inv {cfg : LexCfg V} (ok : CharOk cfg) (hd : cfg.dynare = true) {l : List Char}
    (h : LineComment cfg l) (y : List Char) (hy : NoWs cfg y) (p : Pos) :
    NoWs cfg (l ++ y) ∧ cfg.isLine (l ++ y) = true ∧ l ≠ [] ∧
    ∃ p', cfg.skipLine (l ++ y) p = .ok (y, p') := by
  obtain ⟨ho, hb, hw⟩ := h
  rename_i opener body ws
  have hnl : '\n' ∉ opener ++ body := by
    rcases ho with rfl | rfl <;> simp [hb]
  have hskip : ∃ p', cfg.skipLine (opener ++ body ++ '\n' :: ws ++ y) p = .ok (y, p') := by
    obtain ⟨p1, h1⟩ := skipLineLoop_append (opener ++ body) (ws ++ y) p hnl
    have e : opener ++ body ++ '\n' :: ws ++ y = (opener ++ body) ++ '\n' :: (ws ++ y) := by simp
    unfold LexCfg.skipLine
    rw [e, h1]
    obtain ⟨p2, h2⟩ := skipWs_append cfg ('\n' :: ws) y p1 (by
      intro c hc
      rcases List.mem_cons.mp hc with rfl | hc
      · exact ok.space_nl
      · exact hw c hc)
    rw [List.cons_append] at h2
    simp only [h2, skipWs_of_head cfg y p2 hy]
    exact ⟨p2, rfl⟩
  refine ⟨?_, ?_, ?_, hskip⟩
  · intro c hc
    rcases ho with rfl | rfl <;> simp at hc <;> subst hc
    · exact ok.punct_not_space _ (by decide)
    · exact ok.punct_not_space _ (by decide)
  · rcases ho with rfl | rfl <;> simp [LexCfg.isLine, hd]
  · rcases ho with rfl | rfl <;> simp

theorem skipLines_flatten {cfg : LexCfg V} (ok : CharOk cfg) (ls : List (List Char))
    (hl : ∀ l ∈ ls, cfg.dynare = true ∧ LineComment cfg l) (y : List Char) (hy : NoWs cfg y)
    (hny : cfg.isLine y = false) :
    NoWs cfg (ls.flatten ++ y) ∧
    ∀ (n : Nat) (p : Pos), (ls.flatten ++ y).length < n →
      ∃ p', cfg.skipLines n (ls.flatten ++ y) p = .ok (y, p') := by
  induction ls with
  | nil =>
    refine ⟨by simpa using hy, ?_⟩
    intro n p hn
    cases n with
    | zero => omega
    | succ n => exact ⟨p, by simp [LexCfg.skipLines, hny]⟩
  | cons l ls ih =>
    obtain ⟨ih1, ih2⟩ := ih (fun x hx => hl x (by simp [hx]))
    obtain ⟨hd, hlc⟩ := hl l (by simp)
    have e : (l :: ls).flatten ++ y = l ++ (ls.flatten ++ y) := by simp
    rw [e]
    refine ⟨(lineComment_inv ok hd hlc _ ih1 ⟨1, 0⟩).1, ?_⟩
    intro n p hn
    cases n with
    | zero => omega
    | succ n =>
      obtain ⟨_, hil, hne, p1, hsk⟩ := lineComment_inv ok hd hlc _ ih1 p
      have hlen := List.length_pos_iff.mpr hne
      simp only [List.length_append] at hn
      obtain ⟨p2, h2⟩ := ih2 n p1 (by simp only [List.length_append]; omega)
      exact ⟨p2, by simp [LexCfg.skipLines, hil, hsk, h2]⟩

theorem blockComment_inv {cfg : LexCfg V} (ok : CharOk cfg) (hd : cfg.dynare = true) {b : List Char}
    (h : BlockComment cfg b) (y : List Char) (hy : NoWs cfg y) (p : Pos) :
    NoWs cfg (b ++ y) ∧ cfg.isBlock (b ++ y) = true ∧ cfg.isLine (b ++ y) = false ∧ b ≠ [] ∧
    ∃ p', cfg.skipBlock (b ++ y) p = .ok (y, p') := by
  obtain ⟨hb, hw⟩ := h
  rename_i body ws
  have e : ['/', '*'] ++ body ++ ['*', '/'] ++ ws ++ y =
      '/' :: '*' :: (body ++ '*' :: '/' :: (ws ++ y)) := by simp
  rw [e]
  refine ⟨?_, by simp [LexCfg.isBlock, hd], by simp [LexCfg.isLine], by simp, ?_⟩
  · intro c hc
    simp at hc; subst hc
    exact ok.punct_not_space _ (by decide)
  · unfold LexCfg.skipBlock
    simp only [advance2, List.drop_succ_cons, List.drop_zero]
    obtain ⟨p1, h1⟩ := skipBlockLoop_body body (ws ++ y) (p.over '/' 2) hb
    rw [h1]
    simp only [List.drop_succ_cons, List.drop_zero]
    obtain ⟨p2, h2⟩ := skipWs_append cfg ws y (p1.over '*' 2) hw
    rw [h2, skipWs_of_head cfg y p2 hy]
    exact ⟨p2, rfl⟩

theorem skipBlocks_flatten {cfg : LexCfg V} (ok : CharOk cfg) (bs : List (List Char))
    (hl : ∀ b ∈ bs, cfg.dynare = true ∧ BlockComment cfg b) (y : List Char) (hy : NoWs cfg y)
    (hny : cfg.isBlock y = false) (hnl : cfg.isLine y = false) :
    NoWs cfg (bs.flatten ++ y) ∧ cfg.isLine (bs.flatten ++ y) = false ∧
    ∀ (n : Nat) (p : Pos), (bs.flatten ++ y).length < n →
      ∃ p', cfg.skipBlocks n (bs.flatten ++ y) p = .ok (y, p') := by
  induction bs with
  | nil =>
    refine ⟨by simpa using hy, by simpa using hnl, ?_⟩
    intro n p hn
    cases n with
    | zero => omega
    | succ n => exact ⟨p, by simp [LexCfg.skipBlocks, hny]⟩
  | cons l ls ih =>
    obtain ⟨ih1, _, ih2⟩ := ih (fun x hx => hl x (by simp [hx]))
    obtain ⟨hd, hlc⟩ := hl l (by simp)
    have e : (l :: ls).flatten ++ y = l ++ (ls.flatten ++ y) := by simp
    rw [e]
    refine ⟨(blockComment_inv ok hd hlc _ ih1 ⟨1, 0⟩).1,
      (blockComment_inv ok hd hlc _ ih1 ⟨1, 0⟩).2.2.1, ?_⟩
    intro n p hn
    cases n with
    | zero => omega
    | succ n =>
      obtain ⟨_, hil, _, hne, p1, hsk⟩ := blockComment_inv ok hd hlc _ ih1 p
      have hlen := List.length_pos_iff.mpr hne
      simp only [List.length_append] at hn
      obtain ⟨p2, h2⟩ := ih2 n p1 (by simp only [List.length_append]; omega)
      exact ⟨p2, by simp [LexCfg.skipBlocks, hil, hsk, h2]⟩

/-- layout in front of something that is not layout is skipped -/
theorem next_layout {cfg : LexCfg V} (ok : CharOk cfg) {l : List Char} (hl : Layout cfg l)
    (x : List Char) (hx : NoWs cfg x) (h1 : cfg.isLine x = false) (h2 : cfg.isBlock x = false) :
    cfg.next (l ++ x) = (cfg.lexOne x ⟨1, 0⟩).map noPos := by
  obtain ⟨hw, hls, hbs⟩ := hl
  rename_i ws ls bs
  obtain ⟨b1, b2, b3⟩ := skipBlocks_flatten ok bs hbs x hx h2 h1
  obtain ⟨l1, l2⟩ := skipLines_flatten ok ls hls (bs.flatten ++ x) b1 b2
  have e : ws ++ ls.flatten ++ bs.flatten ++ x = ws ++ (ls.flatten ++ (bs.flatten ++ x)) := by simp
  rw [e]
  obtain ⟨p1, h3⟩ := skipWs_append cfg ws (ls.flatten ++ (bs.flatten ++ x)) ⟨1, 0⟩ hw
  rw [skipWs_of_head cfg _ p1 l1] at h3
  rw [next_unfold cfg _ ⟨1, 0⟩, h3]
  simp only
  cases hc : ls.flatten ++ (bs.flatten ++ x) with
  | nil =>
    have : x = [] := by
      have := congrArg List.length hc
      simp at this
      exact List.length_eq_zero_iff.mp (by simpa using this.2.2)
    subst this
    rfl
  | cons c r =>
    simp only
    obtain ⟨p2, h4⟩ := l2 (r.length + 2) ⟨1, 0⟩ (by rw [hc]; simp)
    rw [hc] at h4
    rw [h4]
    simp only [Out.ok_bind]
    obtain ⟨p3, h5⟩ := b3 ((bs.flatten ++ x).length + 1) ⟨1, 0⟩ (by omega)
    rw [h5]
    rfl

theorem varChar_false_of_punct {cfg : LexCfg V} {c : Char}
    (h : cfg.isAlnum c = false) (hc : c ≠ '_') : cfg.varChar c = false := by
  simp [LexCfg.varChar, h, hc]

theorem alpha_false {cfg : LexCfg V} (ok : CharOk cfg) {c : Char} (h : cfg.isAlnum c = false) :
    cfg.isAlpha c = false := by
  cases ha : cfg.isAlpha c with
  | false => rfl
  | true => rw [ok.alpha_alnum c ha] at h; cases h

theorem digit_false {cfg : LexCfg V} (ok : CharOk cfg) {c : Char} (h : cfg.isAlnum c = false) :
    cfg.isDigit c = false := by
  cases ha : cfg.isDigit c with
  | false => rfl
  | true => rw [ok.digit_alnum c ha] at h; cases h

theorem begChar_false {cfg : LexCfg V} (ok : CharOk cfg) {c : Char} (h : cfg.isAlnum c = false)
    (hc : c ≠ '_') : cfg.begChar c = false := by
  simp [LexCfg.begChar, alpha_false ok h, hc]

theorem numChar_false {cfg : LexCfg V} (ok : CharOk cfg) {c : Char} (h : cfg.isAlnum c = false)
    (hc : c ≠ '.') : cfg.numChar c = false := by
  simp [LexCfg.numChar, digit_false ok h, hc]

theorem begChar_ne {cfg : LexCfg V} (ok : CharOk cfg) {c : Char} (h : cfg.begChar c = true)
    (d : Char) (hd : cfg.isAlnum d = false) (h_ : d ≠ '_') : c ≠ d := by
  rintro rfl
  rw [begChar_false ok hd h_] at h; cases h

theorem numChar_ne {cfg : LexCfg V} (ok : CharOk cfg) {c : Char} (h : cfg.numChar c = true)
    (d : Char) (hd : cfg.isAlnum d = false) (h_ : d ≠ '.') : c ≠ d := by
  rintro rfl
  rw [numChar_false ok hd h_] at h; cases h

theorem numChar_not_beg {cfg : LexCfg V} (ok : CharOk cfg) {c : Char} (h : cfg.numChar c = true) :
    cfg.begChar c = false := by
  simp only [LexCfg.numChar, Bool.or_eq_true, beq_iff_eq] at h
  rcases h with h | rfl
  · have h1 := ok.digit_not_alpha c h
    have h2 : c ≠ '_' := by
      rintro rfl
      have := ok.digit_alnum _ h
      rw [ok.punct_not_alnum '_' (by decide)] at this; cases this
    simp [LexCfg.begChar, h1, h2]
  · exact begChar_false ok (ok.punct_not_alnum _ (by decide)) (by decide)

theorem begChar_not_space {cfg : LexCfg V} (ok : CharOk cfg) {c : Char} (h : cfg.begChar c = true) :
    cfg.isSpace c = false := by
  have := begChar_varChar ok h
  simp only [LexCfg.varChar, Bool.or_eq_true, beq_iff_eq] at this
  rcases this with h | rfl
  · exact ok.alnum_not_space c h
  · exact ok.punct_not_space _ (by decide)

theorem numChar_not_space {cfg : LexCfg V} (ok : CharOk cfg) {c : Char} (h : cfg.numChar c = true) :
    cfg.isSpace c = false := by
  simp only [LexCfg.numChar, Bool.or_eq_true, beq_iff_eq] at h
  rcases h with h | rfl
  · exact ok.alnum_not_space c (ok.digit_alnum c h)
  · exact ok.punct_not_space _ (by decide)

theorem lexStrBody_append (q : Char) : ∀ (cs rest : List Char) (p : Pos), q ∉ cs →
    ∃ p', lexStrBody q (cs ++ q :: rest) p = .ok (cs, rest, p') := by
  intro cs
  induction cs with
  | nil => intro rest p _; exact ⟨p.over q, by simp [lexStrBody]⟩
  | cons c cs ih =>
    intro rest p h
    have hc : c ≠ q := fun e => h (by simp [e])
    obtain ⟨p', hp⟩ := ih rest (p.over c) (fun x => h (by simp [x]))
    exact ⟨p', by simp [lexStrBody, hc, hp]⟩

/-- first characters of punctuation -/
def symChars : List Char := [',', ';', ':', '#', '&', '|', '@', '!', '~', '%',
    '<', '>', '=', '\\', '^', '+', '-', '*', '/', '(', ')', '[', ']', '{', '}']

/-- the punctuation table read forwards -/
theorem symOf_text (py : Bool) (s : Sym) (w : List Char) (h : s.text py = some w) :
    ∃ c w', w = c :: w' ∧ c ∈ symChars ∧
      ∀ rest : List Char,
        (∀ d, rest.head? = some d → match s with
          | .lt | .gt | .equals => d ≠ '='
          | .mul => py = true → d ≠ '*'
          | _ => True) →
        symOf py c (w' ++ rest).head? = some (s, w.length) ∧
          (w' ++ rest).drop (w.length - 1) = rest := by
  cases s <;> cases py <;> simp only [Sym.text, Option.some.injEq, if_true, reduceCtorEq] at h <;>
    subst h <;>
    refine ⟨_, _, rfl, by decide, ?_⟩ <;> intro rest hr <;>
    rcases rest with _ | ⟨d, rest⟩ <;>
    first
      | exact ⟨rfl, rfl⟩
      | (have h1 := hr d rfl; simp at h1; refine ⟨?_, rfl⟩; simp [symOf, h1])

theorem fn_step {p : Prop} [Decidable p] {a f : Fn} {x : Option Fn} (h : (if p then some a else x) = some f) :
    p ∧ a = f ∨ x = some f := by
  by_cases hp : p
  · rw [if_pos hp] at h
    exact .inl ⟨hp, Option.some.inj h⟩
  · rw [if_neg hp] at h
    exact .inr h

theorem fn_text (f : Fn) : Fn.ofName f.text = some f := by
  cases f <;> decide

theorem fn_ofName {s : String} {f : Fn} : Fn.ofName s = some f ↔ s = f.text := by
  constructor
  · intro h
    unfold Fn.ofName at h
    iterate 18
      rcases fn_step h with ⟨rfl, rfl⟩ | h
      · rfl
    cases h
  · rintro rfl
    exact fn_text f

theorem fn_none {s : String} : Fn.ofName s = none ↔ ∀ f : Fn, s ≠ f.text := by
  constructor
  · intro h f e
    rw [fn_ofName.mpr e] at h
    cases h
  · intro h
    cases e : Fn.ofName s with
    | none => rfl
    | some f => exact absurd (fn_ofName.mp e) (h f)

theorem spells_lex {cfg : LexCfg V} (ok : CharOk cfg) {t : Tok V} {w : List Char}
    (h : Spells cfg t w) (rest : List Char) (hf : Follows cfg t rest) (p : Pos) :
    (cfg.lexOne (w ++ rest) p).map noPos = .ok (t, rest) := by
  have word : ∀ (c : Char) (cs : List Char), cfg.begChar c = true →
      (∀ x ∈ cs, cfg.varChar x = true) → (∀ d, rest.head? = some d → cfg.varChar d = false) →
      (cfg.lexOne (c :: cs ++ rest) p).map noPos =
        .ok (if String.ofList (c :: cs) ∈ cfg.keywords then .kw (String.ofList (c :: cs))
          else match Fn.ofName (String.ofList (c :: cs)) with
            | some f => .func f
            | none => .id (String.ofList (c :: cs)), rest) := by
    intro c cs hb hv hr
    obtain ⟨p', hs⟩ := spanAdv_append cfg.varChar (c :: cs) rest p (by
      intro x hx
      rcases List.mem_cons.mp hx with rfl | hx
      · exact begChar_varChar ok hb
      · exact hv x hx) hr
    rw [List.cons_append] at hs ⊢
    simp only [LexCfg.lexOne, hb, if_true, LexCfg.lexId, hs, Out.map_ok, noPos]
    rfl
  cases h with
  | id hb hv h1 h2 =>
    rw [word _ _ hb hv (fun d hd => hf d hd)]
    simp only [h1, fn_none.mpr h2, if_false]
  | kw hb hv h1 =>
    rw [word _ _ hb hv (fun d hd => hf d hd)]
    simp only [h1, if_true]
  | func hb hv h1 h2 =>
    rw [word _ _ hb hv (fun d hd => hf d hd)]
    simp only [h1, fn_ofName.mpr h2, if_false]
  | @num c cs v hn hv =>
    obtain ⟨p', hs⟩ := spanAdv_append cfg.numChar (c :: cs) rest p hn (fun d hd => hf d hd)
    have hc := hn c (by simp)
    rw [List.cons_append] at hs ⊢
    simp only [LexCfg.lexOne, numChar_not_beg ok hc, hc, if_true, LexCfg.lexNum, hs, hv]
    rfl
  | @str q cs hq hn =>
    obtain ⟨p', hs⟩ := lexStrBody_append q cs rest (p.over q) hn
    have hal : cfg.isAlnum q = false := by
      rcases hq with rfl | rfl <;> exact ok.punct_not_alnum _ (by decide)
    have h1 : cfg.begChar q = false := begChar_false ok hal (by rcases hq with rfl | rfl <;> decide)
    have h2 : cfg.numChar q = false := numChar_false ok hal (by rcases hq with rfl | rfl <;> decide)
    have e : q :: cs ++ [q] ++ rest = q :: (cs ++ q :: rest) := by simp
    rw [e]
    simp [LexCfg.lexOne, h1, h2, hq, hs, noPos]
  | @sym s w hs hpc =>
    obtain ⟨c, w', rfl, hc, hsym⟩ := symOf_text cfg.pyExp s w hs
    obtain ⟨h3, h4⟩ := hsym rest (by
      intro d hd
      have := hf d hd
      cases s <;> first | trivial | exact this)
    have hal : cfg.isAlnum c = false := by
      apply ok.punct_not_alnum
      exact (by decide : ∀ c ∈ symChars, c ∈ _) c hc
    have hne : c ≠ '_' ∧ c ≠ '.' ∧ c ≠ '\'' ∧ c ≠ '"' := by
      exact (by decide : ∀ c ∈ symChars, c ≠ '_' ∧ c ≠ '.' ∧ c ≠ '\'' ∧ c ≠ '"') c hc
    have h1 := begChar_false ok hal hne.1
    have h2 := numChar_false ok hal hne.2.1
    rw [List.cons_append]
    have hq : ¬ (c = '\'' ∨ c = '"') := by simp [hne]
    simp only [LexCfg.lexOne, h1, h2, hq, h3, if_false, Bool.false_eq_true, Out.map_ok, noPos, h4]

theorem spells_start {cfg : LexCfg V} (ok : CharOk cfg) {t : Tok V} {w : List Char}
    (h : Spells cfg t w) (rest : List Char) (hf : Follows cfg t rest) :
    w ≠ [] ∧ NoWs cfg (w ++ rest) ∧ cfg.isLine (w ++ rest) = false ∧
      cfg.isBlock (w ++ rest) = false := by
  have gen : ∀ (c : Char) (cs : List Char), cfg.isSpace c = false → c ≠ '%' → c ≠ '/' →
      (c :: cs) ≠ [] ∧ NoWs cfg (c :: cs ++ rest) ∧ cfg.isLine (c :: cs ++ rest) = false ∧
      cfg.isBlock (c :: cs ++ rest) = false := by
    intro c cs h1 h2 h3
    refine ⟨by simp, ?_, by simp [LexCfg.isLine, h2, h3], by simp [LexCfg.isBlock, h3]⟩
    intro d hd
    simp at hd; subst hd; exact h1
  have word : ∀ (c : Char) (cs : List Char), cfg.begChar c = true →
      (c :: cs) ≠ [] ∧ NoWs cfg (c :: cs ++ rest) ∧ cfg.isLine (c :: cs ++ rest) = false ∧
      cfg.isBlock (c :: cs ++ rest) = false := by
    intro c cs hb
    exact gen c cs (begChar_not_space ok hb)
      (begChar_ne ok hb '%' (ok.punct_not_alnum _ (by decide)) (by decide))
      (begChar_ne ok hb '/' (ok.punct_not_alnum _ (by decide)) (by decide))
  cases h with
  | id hb hv h1 h2 => exact word _ _ hb
  | kw hb hv h1 => exact word _ _ hb
  | func hb hv h1 h2 => exact word _ _ hb
  | @num c cs v hn hv =>
    have hc := hn c (by simp)
    exact gen c cs (numChar_not_space ok hc)
      (numChar_ne ok hc '%' (ok.punct_not_alnum _ (by decide)) (by decide))
      (numChar_ne ok hc '/' (ok.punct_not_alnum _ (by decide)) (by decide))
  | @str q cs hq hn =>
    refine gen q (cs ++ [q]) ?_ ?_ ?_
    · rcases hq with rfl | rfl <;> exact ok.punct_not_space _ (by decide)
    · rcases hq with rfl | rfl <;> decide
    · rcases hq with rfl | rfl <;> decide
  | @sym s w hs hpc =>
    obtain ⟨c, w', rfl, hc, _⟩ := symOf_text cfg.pyExp s w hs
    have hsp : cfg.isSpace c = false := by
      apply ok.punct_not_space
      exact (by decide : ∀ c ∈ symChars, c ∈ _) c hc
    by_cases hdiv : s = .div
    · subst hdiv
      simp only [Sym.text, Option.some.injEq, List.cons.injEq] at hs
      obtain ⟨rfl, rfl⟩ := hs
      refine ⟨by simp, ?_, ?_, ?_⟩
      · intro d hd; simp at hd; subst hd; exact hsp
      · cases rest with
        | nil => simp [LexCfg.isLine]
        | cons d rest =>
          have := hf d rfl
          simp only at this
          simp only [LexCfg.isLine, List.cons_append, List.nil_append, List.head?_cons]
          cases hdy : cfg.dynare with
          | false => rfl
          | true => simp [(this hdy).1]
      · cases rest with
        | nil => simp [LexCfg.isBlock]
        | cons d rest =>
          have := hf d rfl
          simp only at this
          simp only [LexCfg.isBlock, List.cons_append, List.nil_append, List.head?_cons]
          cases hdy : cfg.dynare with
          | false => rfl
          | true => simp [(this hdy).2]
    · by_cases hper : s = .percent
      · subst hper
        have hdy : cfg.dynare = false := by
          cases h : cfg.dynare with
          | false => rfl
          | true => exact absurd ⟨h, rfl⟩ hpc
        refine ⟨by simp, ?_, by simp [LexCfg.isLine, hdy], by simp [LexCfg.isBlock, hdy]⟩
        intro d hd; simp at hd; subst hd; exact hsp
      · apply gen c w' hsp
        · rintro rfl
          cases s <;> simp [Sym.text] at hs hper hdiv
          split at hs <;> simp at hs
        · rintro rfl
          cases s <;> simp [Sym.text] at hs hper hdiv
          split at hs <;> simp at hs

theorem kindsFrom_written {cfg : LexCfg V} (ok : CharOk cfg) {toks : List (Tok V)}
    {s R : List Char} (h : Written cfg toks s R) :
    cfg.kindsFrom (s ++ R) = cfg.kindsFrom R >>= fun ts => .ok (toks ++ ts) := by
  induction h with
  | @nil R => simp only [List.nil_append]; cases cfg.kindsFrom R <;> rfl
  | @cons t ts l w s R hl hs hf hw ih =>
    obtain ⟨hne, h1, h2, h3⟩ := spells_start ok hs (s ++ R) hf
    have e : l ++ w ++ s ++ R = l ++ (w ++ (s ++ R)) := by simp
    rw [e, kindsFrom_cons ok (by
      intro h0
      have := congrArg List.length h0
      simp at this
      exact hne this.2.1)]
    rw [next_layout ok hl _ h1 h2 h3, spells_lex ok hs _ hf]
    simp only [Out.ok_bind]
    rw [ih]
    cases cfg.kindsFrom R <;> rfl

end Pynare
