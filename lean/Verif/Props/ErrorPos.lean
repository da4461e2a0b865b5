import Verif.Model.ErrorPos
import Verif.Props.Lexer
/-!
# C192: positions in messages about syntax errors
-/

namespace Pynare

variable {V : Type}

theorem runStore_append : ∀ (us vs : List (Tok V × Pos)) (st : ResWord → Option Pos),
    runStore (us ++ vs) st = runStore vs (runStore us st)
  | [], _, _ => rfl
  | (_, _) :: us, vs, _ => runStore_append us vs _

theorem runStore_other {w : ResWord} : ∀ (ts : List (Tok V × Pos)) (st : ResWord → Option Pos),
    (∀ x ∈ ts, x.1.word ≠ some w) → runStore ts st w = st w
  | [], _, _ => rfl
  | (t, p) :: ts, st, h => by
    rw [runStore, runStore_other ts _ fun x hx => h x (.tail _ hx)]
    have h0 : t.word ≠ some w := h (t, p) (.head _)
    cases hw : t.word with
    | none => rfl
    | some w' =>
      have : w ≠ w' := fun e => h0 (by rw [hw, e])
      simp [this]

/-- the position kept for a word is that of its last occurrence -/
theorem runStore_last {w : ResWord} {us vs : List (Tok V × Pos)} {t : Tok V} {p : Pos} (st : ResWord → Option Pos)
    (hw : t.word = some w) (hv : ∀ x ∈ vs, x.1.word ≠ some w) : runStore (us ++ (t, p) :: vs) st w = some p := by
  rw [runStore_append, runStore, runStore_other vs _ hv]
  simp [hw]

theorem exists_last {w : ResWord} : ∀ (ts : List (Tok V × Pos)), (∃ x ∈ ts, x.1.word = some w) →
    ∃ us vs t p, ts = us ++ (t, p) :: vs ∧ t.word = some w ∧ ∀ x ∈ vs, x.1.word ≠ some w
  | [], h => by obtain ⟨x, hx, -⟩ := h; cases hx
  | (t, p) :: ts, h => by
    by_cases hr : ∃ x ∈ ts, x.1.word = some w
    · obtain ⟨us, vs, t', p', rfl, h1, h2⟩ := exists_last ts hr
      exact ⟨(t, p) :: us, vs, t', p', rfl, h1, h2⟩
    · obtain ⟨x, hx, hw⟩ := h
      rcases List.mem_cons.mp hx with rfl | hx
      · exact ⟨[], ts, t, p, rfl, hw, fun x hx e => hr ⟨x, hx, e⟩⟩
      · exact absurd ⟨x, hx, hw⟩ hr

/-- **C192, which position a message states.**  A message about a token that is a reserved word states the position of the last
occurrence of this word in the text: the text splits just after that occurrence, what remains is read as tokens without the word,
and the message states the line and the column of the split. -/
theorem C192_last {cfg : LexCfg V} (ok : CharOk cfg) (shown : Tok V → List Char) (text : List Char) (hc : BlocksClosed cfg text)
    (ts : List (Tok V × Pos)) (h : cfg.tokenize text = .ok ts) {i : Nat} {t : Tok V} {p : Pos} {w : ResWord}
    (hi : ts[i]? = some (t, p)) (hw : t.word = some w) :
    ∃ a b rest, text = a ++ b ∧ (b = [] ∧ (rest = [] ∨ rest = [.eof]) ∨ cfg.kinds b = .ok rest) ∧
      (∀ x ∈ rest, x.word ≠ some w) ∧
      syntaxText shown ts i = some ("syntax error: ".toList ++ shown t ++ " in line ".toList ++
        Nat.toDigits 10 (posAfter a).line ++ " in column ".toList ++ Nat.toDigits 10 (posAfter a).col) := by
  obtain ⟨us, vs, t', p', rfl, h1, h2⟩ := exists_last (w := w) ts ⟨_, List.mem_of_getElem? hi, hw⟩
  obtain ⟨a, b, e, hp, hb⟩ := C10_positions_partial ok text hc _ h us vs t' p' rfl
  refine ⟨a, b, vs.map Prod.fst, e, hb, ?_, ?_⟩
  · intro x hx
    obtain ⟨y, hy, rfl⟩ := List.mem_map.mp hx
    exact h2 y hy
  · have hs : seenPos (us ++ (t', p') :: vs) (t, p) = posAfter a := by
      unfold seenPos
      simp only [hw]
      rw [runStore_last _ h1 h2, ← hp]
      rfl
    simp only [syntaxText, hi, Option.map_some, hs]

/-- **C192, the part that holds.**  A message about a token that is no reserved word, or the last occurrence of one, states the line
and the column of the point of the text just after the token.  Missing: reserved words that occur again, see `C192_false`. -/
theorem C192_own_partial {cfg : LexCfg V} (ok : CharOk cfg) (shown : Tok V → List Char) (text : List Char)
    (hc : BlocksClosed cfg text) (ts us vs : List (Tok V × Pos)) (h : cfg.tokenize text = .ok ts) {t : Tok V} {p : Pos}
    (hts : ts = us ++ (t, p) :: vs) (hw : t.word = none ∨ ∀ x ∈ vs, x.1.word ≠ t.word) :
    ∃ a b, text = a ++ b ∧
      (b = [] ∧ (vs.map Prod.fst = [] ∨ vs.map Prod.fst = [.eof]) ∨ cfg.kinds b = .ok (vs.map Prod.fst)) ∧
      syntaxText shown ts us.length = some ("syntax error: ".toList ++ shown t ++ " in line ".toList ++
        Nat.toDigits 10 (posAfter a).line ++ " in column ".toList ++ Nat.toDigits 10 (posAfter a).col) := by
  obtain ⟨a, b, e, hp, hb⟩ := C10_positions_partial ok text hc _ h us vs t p hts
  refine ⟨a, b, e, hb, ?_⟩
  have hs : seenPos ts (t, p) = posAfter a := by
    unfold seenPos
    cases hw' : t.word with
    | none => simpa using hp
    | some w =>
      have h2 : ∀ x ∈ vs, x.1.word ≠ some w := by
        rcases hw with hw | hw
        · rw [hw] at hw'; cases hw'
        · rw [← hw']; exact hw
      simp only [hts]
      rw [runStore_last _ hw' h2, ← hp]
      rfl
  have hi : ts[us.length]? = some (t, p) := by rw [hts]; simp
  simp only [syntaxText, hi, Option.map_some, hs]

/-- **C192 is false**: in `exp y`, line break, `exp`, a message about the first `exp` states line 2, and the same message is given
for the second. -/
theorem C192_false : ∃ ts, (asciiCfg false false).tokenize "exp y\nexp".toList = .ok ts ∧
    (ts.map Prod.fst = [.func .exp, .id "y", .func .exp, .eof]) ∧
    (posAfter "exp".toList).line = 1 ∧
    syntaxText (fun _ => "'exp'".toList) ts 0 = some "syntax error: 'exp' in line 2 in column 3".toList ∧
    syntaxText (fun _ => "'exp'".toList) ts 2 = syntaxText (fun _ => "'exp'".toList) ts 0 :=
  ⟨[(.func .exp, ⟨1, 3⟩), (.id "y", ⟨1, 5⟩), (.func .exp, ⟨2, 3⟩), (.eof, ⟨2, 3⟩)], by decide +kernel, by decide +kernel,
    by decide +kernel, by decide +kernel, by decide +kernel⟩

/-- the hypotheses of `C192_last` (first `exp`) and of `C192_own_partial` (`y`, which is no reserved word, and the second `exp`) -/
example : ∃ ts : List (Tok Nat × Pos), CharOk (asciiCfg false false) ∧ BlocksClosed (asciiCfg false false) "exp y\nexp".toList ∧
    (asciiCfg false false).tokenize "exp y\nexp".toList = .ok ts ∧
    ts[0]? = some (.func .exp, ⟨1, 3⟩) ∧ (Tok.func .exp : Tok Nat).word = some (.func .exp) ∧
    ts = [(.func .exp, ⟨1, 3⟩)] ++ (.id "y", ⟨1, 5⟩) :: [(.func .exp, ⟨2, 3⟩), (.eof, ⟨2, 3⟩)] ∧ (Tok.id "y" : Tok Nat).word = none ∧
    (∀ x ∈ [((.eof : Tok Nat), (⟨2, 3⟩ : Pos))], x.1.word ≠ (Tok.func .exp : Tok Nat).word) ∧
    syntaxText (fun _ => "'y'".toList) ts 1 = some "syntax error: 'y' in line 1 in column 5".toList :=
  ⟨[(.func .exp, ⟨1, 3⟩), (.id "y", ⟨1, 5⟩), (.func .exp, ⟨2, 3⟩), (.eof, ⟨2, 3⟩)], charOk_ascii _ _, (fun h => by cases h),
    by decide +kernel, rfl, rfl, rfl, rfl, by decide +kernel, by decide +kernel⟩

#print axioms C192_last
#print axioms C192_own_partial
#print axioms C192_false

end Pynare
