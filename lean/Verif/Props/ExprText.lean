import Verif.Lemmas.ExprText
import Verif.Lemmas.Build
import Verif.Examples.WholeRun
/-!
# C171: the printed equations of a model

`exprsText isSpace x` – `str(x)` for a container of equations `x`; `x.strs` – the texts of its equations, empty for
those given as trees; `fromText` – `Model.from_path` from the text of the file on; `cfg.kinds` – the tokens of a text.
-/

namespace Pynare

variable {V SS S : Type}

/-- **C171**: the equations of a model can be printed exactly if there is at least one and the text of each has exactly
one equals sign; otherwise printing them raises `ValueError`. -/
theorem C171_printed (f : Char → Bool) (x : ModelExprs V) :
    ((∃ out, exprsText f x = .ok out) ↔ x.strs ≠ [] ∧ ∀ s ∈ x.strs, s.toList.count '=' = 1) ∧
    ((¬ ∃ out, exprsText f x = .ok out) → exprsText f x = .error .valueError) := by
  by_cases h : ∀ s ∈ x.strs, s.toList.count '=' = 1
  · obtain ⟨ps, h1, h2, _⟩ := sidesLoop_ok (f := f) h
    by_cases hn : x.strs = []
    · have : exprsText f x = .error .valueError := by
        have hp : ps = [] := by rw [hn] at h2; simpa using h2
        simp only [exprsText, h1, hp, exc_bind]; rfl
      exact ⟨⟨fun ⟨_, e⟩ => (by rw [this] at e; cases e), fun e => absurd hn e.1⟩, fun _ => this⟩
    · have hp : ps.map Prod.fst ≠ [] := by
        intro e
        have e' := congrArg List.length e
        rw [List.length_map, h2] at e'
        exact hn (List.eq_nil_of_length_eq_zero e')
      obtain ⟨n, h3, _⟩ := maxLen_attained hp
      have : ∃ out, exprsText f x = .ok out := ⟨_, by simp only [exprsText, h1, h3, exc_bind]; rfl⟩
      exact ⟨⟨fun _ => ⟨hn, h⟩, fun _ => this⟩, fun e => absurd this e⟩
  · have : exprsText f x = .error .valueError := by
      simp only [not_forall] at h
      obtain ⟨s, hs, h⟩ := h
      simp only [exprsText, sidesLoop_error ⟨s, hs, h⟩]; rfl
    exact ⟨⟨fun ⟨_, e⟩ => (by rw [this] at e; cases e), fun e => absurd e.2 h⟩, fun _ => this⟩

/-- **C171**: what is printed is a heading and one line for each equation, in order; each line shows the two sides of its
equation as they were written, without white space at their ends, and all equals signs are in the same column, one blank
after the longest left side. -/
theorem C171_lines (f : Char → Bool) (x : ModelExprs V) (out : List Char) (h : exprsText f x = .ok out) :
    ∃ (n : Nat) (lines : List (List Char)),
      out = ['\n'].intercalate ("Model Expressions".toList :: lines) ∧ lines.length = x.strs.length ∧
      (∀ (i : Nat) (s : String) (line : List Char), x.strs[i]? = some s → lines[i]? = some line →
        ShownAs f n s.toList line ∧ (line.drop (n + 5)).head? = some '=') ∧
      ∃ s ∈ x.strs, ∃ a b l, s.toList = a ++ '=' :: b ∧ '=' ∉ a ∧ Trims f a l ∧ l.length = n := by
  obtain ⟨hne, hc⟩ := (C171_printed f x).1.mp ⟨out, h⟩
  obtain ⟨ps, h1, h2, h3⟩ := sidesLoop_ok (f := f) hc
  have hp : ps.map Prod.fst ≠ [] := by
    intro e
    have e' := congrArg List.length e
    rw [List.length_map, h2] at e'
    exact hne (List.eq_nil_of_length_eq_zero e')
  obtain ⟨n, h4, h5, t, ht, htn⟩ := maxLen_attained hp
  simp only [exprsText, h1, h4, exc_bind, Except.ok.injEq] at h
  refine ⟨n, _, h.symm, by rw [List.length_map, h2], ?_, ?_⟩
  · intro i s line hs hl
    rw [List.getElem?_map] at hl
    cases hpi : ps[i]? with
    | none => rw [hpi] at hl; cases hl
    | some p =>
      rw [hpi] at hl
      simp only [Option.map_some, Option.some.injEq] at hl
      obtain ⟨a, b, e1, e2, e3, rfl⟩ := h3 i s p hs hpi
      have hln : (strip f a).length ≤ n := h5 _ (List.mem_map.mpr ⟨_, List.mem_of_getElem? hpi, rfl⟩)
      have hline : line = "    ".toList ++ strip f a ++ List.replicate (n - (strip f a).length) ' ' ++ " = ".toList ++
          strip f b := by
        rw [← hl]
        simp [joinTxt, ljust, List.intercalate, List.intersperse, List.replicate]
      refine ⟨⟨a, b, _, _, e1, e2, e3, strip_trims f a, strip_trims f b, hln, hline⟩, ?_⟩
      have e : line = ("    ".toList ++ strip f a ++ List.replicate (n - (strip f a).length) ' ' ++ [' ']) ++
          '=' :: ' ' :: strip f b := by rw [hline]; simp
      have hlen : ("    ".toList ++ strip f a ++ List.replicate (n - (strip f a).length) ' ' ++ [' ']).length = n + 5 := by
        simp; omega
      rw [e, List.drop_append_of_le_length (by omega), List.drop_eq_nil_of_le (by omega)]
      rfl
  · obtain ⟨p, hpm, rfl⟩ := List.mem_map.mp ht
    obtain ⟨i, hi, rfl⟩ := List.getElem_of_mem hpm
    have hi' : i < x.strs.length := by omega
    obtain ⟨a, b, e1, e2, e3, e4⟩ := h3 i x.strs[i] ps[i] (by simp [hi']) (by simp [hi])
    refine ⟨x.strs[i], List.getElem_mem hi', a, b, strip f a, e1, e2, strip_trims f a, ?_⟩
    rw [← htn, e4]

/-- a container of two equations that is printed -/
example : exprsText (V := Int) (fun c => c == ' ') ⟨[.num 0, .num 0], ["c+k =y", " k=  0.9*k(-1) "]⟩ =
    .ok "Model Expressions\n    c+k = y\n    k   = 0.9*k(-1)".toList := by decide

/-- **C171**, the part that holds: the printed line of an equation is made of the same tokens as its text, if the text is
a left side and a right side, each some tokens with any white space and comments before them, and the equals sign is a
token of its own.  (What `cfg.kinds` adds are marks of the end.) -/
theorem C171_tokens_partial {cfg : LexCfg V} (ok : CharOk cfg) (tl tr : List (Tok V)) (s1 w1 s2 w2 : List Char)
    (hl : tl ≠ []) (hr : tr ≠ []) (h1 : Written cfg tl s1 (w1 ++ '=' :: (s2 ++ w2))) (h2 : Written cfg tr s2 w2)
    (hw1 : ∀ c ∈ w1, cfg.isSpace c = true) (hw2 : ∀ c ∈ w2, cfg.isSpace c = true) (n : Nat) (line : List Char)
    (h : ShownAs cfg.isSpace n (s1 ++ w1 ++ '=' :: (s2 ++ w2)) line) (hs1 : '=' ∉ s1) :
    ∃ j k, cfg.kinds (s1 ++ w1 ++ '=' :: (s2 ++ w2)) =
        .ok (tl ++ .sym .equals :: tr ++ List.replicate (j + 1) .eof) ∧
      cfg.kinds line = .ok (tl ++ .sym .equals :: tr ++ List.replicate (k + 1) .eof) := by
  obtain ⟨a, b, l, r, e, ha, hb, tl', tr', hn, rfl⟩ := h
  have hew1 : '=' ∉ w1 := by
    intro hm
    have := hw1 _ hm
    rw [ok.punct_not_space _ (by decide)] at this
    cases this
  have hab : s1 ++ w1 = a ∧ s2 ++ w2 = b := by
    have key : ∀ (p q u v : List Char), '=' ∉ p → '=' ∉ u → p ++ '=' :: q = u ++ '=' :: v → p = u ∧ q = v := by
      intro p
      induction p with
      | nil =>
        intro q u v _ hu e
        cases u with
        | nil => simpa using e
        | cons d u => exfalso; simp only [List.nil_append, List.cons_append, List.cons.injEq] at e; simp [← e.1] at hu
      | cons c p ih =>
        intro q u v hp hu e
        cases u with
        | nil => exfalso; simp only [List.nil_append, List.cons_append, List.cons.injEq] at e; simp [e.1] at hp
        | cons d u =>
          simp only [List.cons_append, List.cons.injEq] at e
          obtain ⟨e1, e2⟩ := ih q u v (fun h => hp (by simp [h])) (fun h => hu (by simp [h])) e.2
          exact ⟨by rw [e.1, e1], e2⟩
    exact key _ _ _ _ (by simp [hs1, hew1]) ha e
  obtain ⟨rfl, rfl⟩ := hab
  have hs2 : '=' ∉ s2 := fun hm => hb (by simp [hm])
  have hne1 := written_ne ok h1 hl
  have hne2 := written_ne ok h2 hr
  obtain ⟨p1, hp1, hq1⟩ := trims_written hne1 (written_last ok h1) hw1 tl'
  obtain ⟨p2, hp2, hq2⟩ := trims_written hne2 (written_last ok h2) hw2 tr'
  have hlne : l ≠ [] := by
    rintro rfl
    obtain ⟨c, hc⟩ : ∃ c, s1.getLast? = some c := by
      cases h : s1.getLast? with
      | none => exact absurd (List.getLast?_eq_none_iff.mp h) hne1
      | some c => exact ⟨c, rfl⟩
    have := written_last ok h1 c hc
    rw [hq1 c (by have := List.mem_of_getLast? hc; rw [hp1] at this; simpa using this)] at this
    cases this
  obtain ⟨j, hj⟩ := kinds_equation (w := []) ok h1 hw1 (by simp) h2 hs2 hr hw2
  have hbl : ∀ m, ∀ c ∈ List.replicate m ' ', cfg.isSpace c = true := by
    intro m c hc; rw [(List.mem_replicate.mp hc).2]; exact ok.space_blank
  -- the line, its leading blanks replaced by the original white space
  have h1' : Written cfg tl s1 ((List.replicate (n - l.length + 1) ' ') ++ '=' :: ([' '] ++ s2 ++ [])) := by
    rw [List.replicate_succ]
    exact written_space ok h1 (.inl rfl) _
  have h2' : Written cfg tr s2 [] := by
    by_cases hw : w2 = []
    · rw [hw] at h2; exact h2
    · have gen : ∀ {ts : List (Tok V)} {s R : List Char}, Written cfg ts s R → Written cfg ts s [] := by
        intro ts s R h
        induction h with
        | nil => exact .nil
        | @cons t ts l w s R hl hs hf _ ih =>
          refine .cons hl hs ?_ ih
          cases s with
          | nil => intro c hc; cases hc
          | cons d s => exact hf
      exact gen h2
  obtain ⟨k, hk⟩ := kinds_equation (w := [' ']) ok h1' (hbl _) (by simp [ok.space_blank]) h2' hs2 hr (by simp)
  refine ⟨j, k, ?_, ?_⟩
  · rw [kinds_eq cfg (by simp)]
    simpa using hj
  · rw [kinds_eq cfg (by simp)]
    have rne : r ≠ [] := by
      rintro rfl
      obtain ⟨c, hc⟩ : ∃ c, s2.getLast? = some c := by
        cases h : s2.getLast? with
        | none => exact absurd (List.getLast?_eq_none_iff.mp h) hne2
        | some c => exact ⟨c, rfl⟩
      have := written_last ok h2 c hc
      rw [hq2 c (by have := List.mem_of_getLast? hc; rw [hp2] at this; simpa using this)] at this
      cases this
    have e2 : cfg.kindsFrom ("    ".toList ++ l ++ List.replicate (n - l.length) ' ' ++ " = ".toList ++ r) =
        cfg.kindsFrom (s1 ++ (List.replicate (n - l.length + 1) ' ' ++ '=' :: ([' '] ++ r))) := by
      have c1 : "    ".toList ++ l ++ List.replicate (n - l.length) ' ' ++ " = ".toList ++ r =
          List.replicate 4 ' ' ++ (l ++ (List.replicate (n - l.length + 1) ' ' ++ '=' :: ([' '] ++ r))) := by
        rw [List.replicate_succ' (n := n - l.length)]
        simp only [List.append_assoc]
        rfl
      have c2 : s1 ++ (List.replicate (n - l.length + 1) ' ' ++ '=' :: ([' '] ++ r)) =
          p1 ++ (l ++ (List.replicate (n - l.length + 1) ' ' ++ '=' :: ([' '] ++ r))) := by
        rw [← List.append_assoc p1 l, ← hp1]
      rw [c1, c2, kindsFrom_blanks ok (hbl 4) (by simp), kindsFrom_blanks ok hq1 (by simp)]
    have e3 : cfg.kindsFrom (s1 ++ (List.replicate (n - l.length + 1) ' ' ++ '=' :: ([' '] ++ r))) =
        cfg.kindsFrom (s1 ++ (List.replicate (n - l.length + 1) ' ' ++ '=' :: ([' '] ++ s2 ++ []))) := by
      have g1 : Written cfg tl s1 (List.replicate (n - l.length + 1) ' ' ++ '=' :: ([' '] ++ r)) := by
        rw [List.replicate_succ]
        exact written_space ok h1 (.inl rfl) _
      rw [kindsFrom_written ok g1, kindsFrom_written ok h1']
      have g2 : ∀ y, Written cfg [.sym .equals] (List.replicate (n - l.length + 1) ' ' ++ ['=']) (' ' :: y) := by
        intro y
        have lay : Layout cfg (List.replicate (n - l.length + 1) ' ') := by
          have := Layout.mk (cfg := cfg) (ws := List.replicate (n - l.length + 1) ' ') (ls := []) (bs := []) (hbl _)
            (by simp) (by simp)
          simpa using this
        have := Written.cons (cfg := cfg) (t := .sym .equals) (ts := []) (w := ['=']) (s := []) (R := ' ' :: y)
          lay (.sym rfl (by simp)) (follows_space ok _ (.inl rfl) y) .nil
        simpa using this
      have g3 : ∀ y, List.replicate (n - l.length + 1) ' ' ++ '=' :: ' ' :: y =
          (List.replicate (n - l.length + 1) ' ' ++ ['=']) ++ ' ' :: y := by intro y; simp
      show (cfg.kindsFrom (List.replicate (n - l.length + 1) ' ' ++ '=' :: ' ' :: r) >>= _) =
        (cfg.kindsFrom (List.replicate (n - l.length + 1) ' ' ++ '=' :: ' ' :: (s2 ++ [])) >>= _)
      rw [g3, g3, kindsFrom_written ok (g2 r), kindsFrom_written ok (g2 _)]
      have g4 : cfg.kindsFrom (' ' :: r) = cfg.kindsFrom (' ' :: (s2 ++ [])) := by
        have b1 : ∀ c ∈ [' '], cfg.isSpace c = true := by simp [ok.space_blank]
        have := kindsFrom_blanks (w := [' ']) (x := r) ok b1 rne
        have t2 := kindsFrom_blanks (w := [' ']) (x := s2) ok b1 hne2
        rw [List.append_nil]
        show cfg.kindsFrom ([' '] ++ r) = cfg.kindsFrom ([' '] ++ s2)
        rw [this, t2, hp2, kindsFrom_blanks ok hq2 rne]
      rw [g4]
    rw [e2, e3]
    simpa using hk

/-- a text that meets the hypotheses, with blanks to be removed -/
example : ∃ tl tr, tl ≠ [] ∧ tr ≠ [] ∧
    Written (asciiCfg true false) tl "  c+k".toList ("  ".toList ++ '=' :: (" y".toList ++ " ".toList)) ∧
    Written (asciiCfg true false) tr " y".toList " ".toList ∧
    ShownAs (asciiCfg true false).isSpace 4 ("  c+k".toList ++ "  ".toList ++ '=' :: (" y".toList ++ " ".toList))
      "    c+k  = y".toList := by
  have lay : ∀ ws : List Char, (∀ c ∈ ws, (asciiCfg true false).isSpace c = true) → Layout (asciiCfg true false) ws := by
    intro ws hws
    have := Layout.mk (cfg := asciiCfg true false) (ws := ws) (ls := []) (bs := []) hws (by simp) (by simp)
    simpa using this
  have name : ∀ c : Char, (asciiCfg true false).begChar c = true → String.ofList [c] ∉ (asciiCfg true false).keywords →
      Fn.ofName (String.ofList [c]) = none → Spells (asciiCfg true false) (.id (String.ofList [c])) [c] :=
    fun c h1 h2 h3 => .id h1 (by simp) h2 (fn_none.mp h3)
  refine ⟨[.id "c", .sym .plus, .id "k"], [.id "y"], by simp, by simp, ?_, ?_, ?_⟩
  · refine .cons (l := "  ".toList) (w := ['c']) (s := "+k".toList) (lay _ (by decide))
      (name 'c' (by decide) (by decide) (by decide)) (by intro c hc; cases hc; decide) ?_
    refine .cons (l := []) (w := ['+']) (s := ['k']) (lay _ (by decide)) (.sym rfl (by decide)) (by intro c hc; trivial) ?_
    exact .cons (l := []) (w := ['k']) (s := []) (lay _ (by decide)) (name 'k' (by decide) (by decide) (by decide))
      (by intro c hc; cases hc; decide) .nil
  · exact .cons (l := [' ']) (w := ['y']) (s := []) (lay _ (by decide)) (name 'y' (by decide) (by decide) (by decide))
      (by intro c hc; cases hc; decide) .nil
  · refine ⟨"  c+k  ".toList, " y ".toList, "c+k".toList, "y".toList, by decide, by decide, by decide,
      ⟨"  ".toList, "  ".toList, by decide, by decide, by decide, by decide, by decide⟩,
      ⟨" ".toList, " ".toList, by decide, by decide, by decide, by decide, by decide⟩, by decide, by decide⟩

/-- **C171 is false in general**: a comparison is cut in two, and a comment before the equals sign swallows the rest of
the printed line. -/
theorem C171_false :
    (exprsText (V := Nat) (asciiCfg true false).isSpace ⟨[.num 0], ["x<=y"]⟩ =
        .ok "Model Expressions\n    x< = y".toList ∧
      (asciiCfg true false).kinds "x<=y".toList = .ok [.id "x", .sym .ltoe, .id "y", .eof] ∧
      (asciiCfg true false).kinds "    x< = y".toList = .ok [.id "x", .sym .lt, .sym .equals, .id "y", .eof]) ∧
    (exprsText (V := Nat) (asciiCfg true false).isSpace ⟨[.num 0], ["x %a\n= y"]⟩ =
        .ok "Model Expressions\n    x %a = y".toList ∧
      (asciiCfg true false).kinds "x %a\n= y".toList = .ok [.id "x", .sym .equals, .id "y", .eof] ∧
      (asciiCfg true false).kinds "    x %a = y".toList = .hang) := by
  decide

/-- **C171**: the equations of a model that was read from a file are never printed, whatever the file: the attempt
raises `ValueError`. -/
theorem C171_file [Zero V] [One V] (f : Char → Bool) (r : ReadEnv V SS S) (lang name : String) (text : List Char)
    (m : MState V SS S) (h : fromText r lang name text = .ok m) : exprsText f m.exprs = .error .valueError := by
  obtain ⟨_, h2⟩ := fromText_strs h
  refine (C171_printed f m.exprs).2 fun hex => ?_
  obtain ⟨h3, h4⟩ := (C171_printed f m.exprs).1.mp hex
  cases hs : m.exprs.strs with
  | nil => exact h3 hs
  | cons s ss =>
    have hm : s ∈ m.exprs.strs := by simp [hs]
    have := h4 s hm
    rw [h2 s hm] at this
    exact absurd this (by decide)

/-- a file that is read, with three equations -/
example : ∃ (lang name : String) (md : MState ℚ (ModelSpace ℚ) (Arr ℚ × Arr ℚ)),
    fromText (whRead.first whLib) lang name (exText whText) = .ok md ∧ md.exprs.exprs ≠ [] := by
  obtain ⟨md, md', gy, gu, hr, hs, _⟩ := wh_first
  obtain ⟨lang, name, h⟩ := hr.made
  refine ⟨lang, name, md, h, fun e => ?_⟩
  obtain ⟨σ, pss, hb, hf, _⟩ := text_base hr
  have h1 := hf.steady
  rw [e] at h1
  have h2 : md.steady = [] := (Except.ok.inj h1).symm
  have h3 := hb.rep.steadyLength
  rw [h2] at h3
  exact absurd h3 (by decide)

/-- **C171**: nor are they after equations were added to it, if the file had an equation. -/
theorem C171_added [Zero V] [One V] (f : Char → Bool) (r : ReadEnv V SS S) (lang name : String) (text : List Char)
    (m : MState V SS S) (h : fromText r lang name text = .ok m) (hne : m.exprs.exprs ≠ []) (as : List (ExprArg V)) :
    exprsText f (m.addExprs r.env as).1.exprs = .error .valueError := by
  obtain ⟨h1, h2⟩ := fromText_strs h
  obtain ⟨s, hs⟩ : ∃ s, s ∈ m.exprs.strs := by
    cases hs : m.exprs.strs with
    | nil => rw [hs] at h1; exact absurd (List.eq_nil_of_length_eq_zero h1.symm) hne
    | cons s ss => exact ⟨s, by simp⟩
  have hs' : s ∈ (m.addExprs r.env as).1.exprs.strs := by
    have := exprLoop_strs r.env.parse as m.exprs hs
    unfold MState.addExprs
    cases e : exprLoop r.env.parse as m.exprs with
    | mk x o =>
      rw [e] at this
      cases o <;> exact this
  refine (C171_printed f _).2 fun hex => ?_
  have := ((C171_printed f _).1.mp hex).2 s hs'
  rw [h2 s hs] at this
  exact absurd this (by decide)

#print axioms C171_printed
#print axioms C171_lines
#print axioms C171_tokens_partial
#print axioms C171_false
#print axioms C171_file
#print axioms C171_added

end Pynare
