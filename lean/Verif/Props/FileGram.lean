import Verif.Lemmas.FileGram
/-! # Property C84: model files are read as written

`FileOf pc us mf` (`Verif/Spec/FileGram.lean`) is the grammar of model files: the tokens `us` are a way to write
the contents `mf`. -/

namespace Pynare

variable {V : Type}

/-- **C84.** A model file written according to the grammar is read as its contents: every declaration, value,
option, equation, tag, boundary value and shock, in order, and of several blocks of the same kind the last. -/
theorem C84_complete (pc : PCfg V) (us rest : List (Tok V)) (mf : ModelFile V) (h : FileOf pc us mf) :
    parseModel pc (us ++ .eof :: rest) = .ok mf :=
  parseModel_read h rest

/-- **C84**, on texts: any way of writing the tokens of the file, with any white space and comments between
them, is read as its contents. -/
theorem C84_text {cfg : LexCfg V} (ok : CharOk cfg) (pc : PCfg V) (us : List (Tok V)) (mf : ModelFile V)
    (h : FileOf pc us mf) (text : List Char) (hw : Written cfg us text []) :
    (do let ts ← cfg.kinds text; parseModel pc ts) = .ok mf := by
  have hne : us ≠ [] := by
    obtain ⟨_, hm, _⟩ := h
    obtain ⟨_, _⟩ := hm
    simp
  rw [C09_lexing_inverts_printing ok _ text hne hw, Out.ok_bind]
  exact C84_complete pc us [] mf h

/-- **C84**, the other direction: whatever is accepted is a file of the grammar up to the end-of-file token, with
the contents returned.  Missing: files with a function call directly after a closing parenthesis, for which the
expression parser drops tokens (`C11_calls_dropped`). -/
theorem C84_sound_partial (pc : PCfg V) (ts : List (Tok V)) (mf : ModelFile V) (hN : NoCallAfterParen ts)
    (h : parseModel pc ts = .ok mf) : ∃ us rest, ts = us ++ .eof :: rest ∧ FileOf pc us mf :=
  parseModel_sound hN h

/-- **C84**: the grammar of files is unambiguous. -/
theorem C84_unambiguous (pc : PCfg V) (us : List (Tok V)) (mf mf' : ModelFile V) (h : FileOf pc us mf)
    (h' : FileOf pc us mf') : mf = mf' := by
  have := C84_complete pc us [] mf h
  rw [C84_complete pc us [] mf' h'] at this
  cases this; rfl

/-- `var y, z; varexo e; parameters a; a = 2; model(linear); [name = 'q'] y = a*z(-1) + e; # b = a; z; end;
initval; y = 1; end; endval; y = 3; end; initval; z = 2; end;
shocks; var e; stderr 4; corr y, z = 5; var z; periods 1, 2:3; values 6 (7); end;` -/
def fileToks : List (Tok Nat) :=
  [.kw "var", .id "y", .sym .comma, .id "z", .sym .semi, .kw "varexo", .id "e", .sym .semi,
    .kw "parameters", .id "a", .sym .semi, .id "a", .sym .equals, .num 2, .sym .semi] ++
  [.kw "model", .sym .lpare, .id "linear", .sym .rpare, .sym .semi,
    .sym .lbracket, .id "name", .sym .equals, .str "q", .sym .rbracket,
    .id "y", .sym .equals, .id "a", .sym .mul, .id "z", .sym .lpare, .sym .minus, .num 1, .sym .rpare,
    .sym .plus, .id "e", .sym .semi,
    .sym .pound, .id "b", .sym .equals, .id "a", .sym .semi, .id "z", .sym .semi, .kw "end", .sym .semi] ++
  [.kw "initval", .sym .semi, .id "y", .sym .equals, .num 1, .sym .semi, .kw "end", .sym .semi,
    .kw "endval", .sym .semi, .id "y", .sym .equals, .num 3, .sym .semi, .kw "end", .sym .semi,
    .kw "initval", .sym .semi, .id "z", .sym .equals, .num 2, .sym .semi, .kw "end", .sym .semi,
    .kw "shocks", .sym .semi, .kw "var", .id "e", .sym .semi, .kw "stderr", .num 4, .sym .semi,
    .kw "corr", .id "y", .sym .comma, .id "z", .sym .equals, .num 5, .sym .semi,
    .kw "var", .id "z", .sym .semi, .kw "periods", .num 1, .sym .comma, .num 2, .sym .colon, .num 3, .sym .semi,
    .kw "values", .num 6, .sym .lpare, .num 7, .sym .rpare, .sym .semi, .kw "end", .sym .semi]

/-- Its contents. -/
def fileTree : ModelFile Nat where
  decls := [("y", "var"), ("z", "var"), ("e", "varexo"), ("a", "parameters")]
  params := [("a", .num 2)]
  args := [("linear", .none)]
  stmts := [.eqn (.var "y") (.bin .add (.bin .mul (.var "a") (.pvar "z" (-1))) (.var "e")) (some [("name", some "q")]),
    .loc "b" (.var "a"), .eqn (.var "z") (.num 0) none]
  actions := ⟨some ⟨[], [("z", .num 2)]⟩, some ⟨[], [("y", .num 3)]⟩, none,
    some ⟨[], [.stderr "e" (.num 4), .corr "y" "z" (.num 5), .det "z" [(1, 1), (2, 3)] [.num 6, .num 7]]⟩⟩

theorem num_derives {V : Type} (m : Bool) (pc : PCfg V) (v : V) : Derives m pc [.num v] (.num v) :=
  ⟨false, .term (.expo (.call (.atom .num)))⟩
theorem id_derives {V : Type} (m : Bool) (pc : PCfg V) (x : String) : Derives m pc [.id x] (.var x) :=
  ⟨false, .term (.expo (.call (.atom .id)))⟩

theorem noCall_of_check {V : Type} (ts : List (Tok V))
    (h : (ts.zip ts.tail).all (fun p => !(isSym .rpare [p.1] && match p.2 with | .func _ => true | _ => false)) = true) :
    NoCallAfterParen ts := by
  rintro pre f post rfl
  induction pre with
  | nil => simp [isSym] at h
  | cons t pre ih =>
    apply ih
    cases pre <;> simp_all

/-- The hypotheses of the theorems hold of this file. -/
theorem fileTree_read : FileOf natPC fileToks fileTree ∧ NoCallAfterParen (fileToks ++ [.eof]) ∧
    parseModel natPC (fileToks ++ [.eof]) = .ok fileTree := by
  have hf : FileOf natPC fileToks fileTree := by
    refine .mk (bs := [.bound "initval" ⟨[], [("y", .num 1)]⟩, .bound "endval" ⟨[], [("y", .num 3)]⟩,
      .bound "initval" ⟨[], [("z", .num 2)]⟩,
      .shocks ⟨[], [.stderr "e" (.num 4), .corr "y" "z" (.num 5), .det "z" [(1, 1), (2, 3)] [.num 6, .num 7]]⟩])
      (ds := fileTree.decls) (ps := fileTree.params) (m := (fileTree.args, fileTree.stmts)) ?_ ?_ ?_
    · exact .decl (k := "var") (us := [.id "y", .sym .comma, .id "z"]) (by decide) (.name (.comma .nil))
        (.decl (k := "varexo") (us := [.id "e"]) (by decide) (.name .nil)
          (.decl (k := "parameters") (us := [.id "a"]) (by decide) (.name .nil)
            (.assign (AssignOf.mk (x := "a") (us := [.num 2]) (num_derives _ _ _)) .nil)))
    · refine .mk (us := [.sym .lpare, .id "linear", .sym .rpare])
        (vs := [.sym .lbracket, .id "name", .sym .equals, .str "q", .sym .rbracket,
          .id "y", .sym .equals, .id "a", .sym .mul, .id "z", .sym .lpare, .sym .minus, .num 1, .sym .rpare,
          .sym .plus, .id "e", .sym .semi,
          .sym .pound, .id "b", .sym .equals, .id "a", .sym .semi, .id "z", .sym .semi])
        (.some (us := [.id "linear"]) (vs := []) ArgOf.bare .nil) ?_
      refine .cons (StmtOf.tagged (us := [.id "name", .sym .equals, .str "q"]) (vs := [])
        (ws := [.id "y", .sym .equals, .id "a", .sym .mul, .id "z", .sym .lpare, .sym .minus, .num 1, .sym .rpare,
          .sym .plus, .id "e"]) (lr := (_, _)) TagOf.str .nil
        (.both (us := [.id "y"]) (id_derives _ _ _) ⟨false, .add (s := .plus) (b := .add)
          (ts := [.id "a", .sym .mul, .id "z", .sym .lpare, .sym .minus, .num 1, .sym .rpare]) (us := [.id "e"]) rfl
          (.term (.mul (s := .mul) (b := .mul) (ts := [.id "a"]) (Or.inr rfl) rfl (.expo (.call (.atom .id)))
            (.call (.atom (.pid (d := .neg) (k := 1) rfl rfl rfl)))))
          (.expo (.call (.atom .id)))⟩)) ?_
      exact .cons (StmtOf.loc (x := "b") (us := [.id "a"]) (id_derives _ _ _))
        (.cons (StmtOf.plain (ws := [.id "z"]) (lr := (_, _)) (.left (id_derives _ _ _))) .nil)
    · have hb : ∀ x v, SeqOf (AssignOf natPC) [.id x, .sym .equals, .num v, .sym .semi] [(x, .num v)] := fun x v =>
        .cons (vs := []) (AssignOf.mk (x := x) (us := [.num v]) (num_derives _ _ _)) .nil
      exact .cons (BlockOf.bound (k := "initval") (us := []) (by decide) .none (hb _ _))
        (.cons (BlockOf.bound (k := "endval") (us := []) (by decide) .none (hb _ _))
          (.cons (BlockOf.bound (k := "initval") (us := []) (by decide) .none (hb _ _))
            (.cons (vs := []) (BlockOf.shocks (us := []) .none
              (.cons (ShockOf.stderr (x := "e") (us := [.num 4]) (num_derives _ _ _))
                (.cons (ShockOf.corr (x := "y") (y := "z") (us := [.num 5]) (num_derives _ _ _))
                  (.cons (vs := []) (ShockOf.det (x := "z") (us := [.num 1, .sym .comma, .num 2, .sym .colon, .num 3])
                    (vs := [.num 6, .sym .lpare, .num 7, .sym .rpare])
                    (.cons (cs := []) (us := [.num 1]) .none PeriodOf.one
                      (.cons (cs := [.sym .comma]) (vs := []) .some PeriodOf.range .nil))
                    (.cons (cs := []) (us := [.num 6]) .none ValueOf.num
                      (.cons (cs := []) (us := [.sym .lpare, .num 7, .sym .rpare]) (vs := []) .none
                        (ValueOf.paren (us := [.num 7]) (num_derives _ _ _)) .nil))) .nil)))) .nil)))
  exact ⟨hf, noCall_of_check _ (by decide +kernel), C84_complete _ _ _ _ hf⟩

/-- The hypotheses of `C84_text` hold of the text `model;end;`. -/
example : FileOf natPC [.kw "model", .sym .semi, .kw "end", .sym .semi] ⟨[], [], [], [], ⟨none, none, none, none⟩⟩ ∧
    Written (asciiCfg true false) [.kw "model", .sym .semi, .kw "end", .sym .semi] "model;end;".toList [] := by
  refine ⟨.mk (us := []) (ws := []) (bs := []) (m := ([], [])) .nil (.mk (us := []) (vs := []) .none .nil) .nil, ?_⟩
  have h0 : Layout (asciiCfg true false) [] := .mk (ws := []) (ls := []) (bs := []) (by simp) (by simp) (by simp)
  have hs : Spells (asciiCfg true false) (.sym .semi) [';'] := .sym (by decide) (by decide)
  have hm : Spells (asciiCfg true false) (.kw "model") ['m', 'o', 'd', 'e', 'l'] :=
    .kw (cs := ['o', 'd', 'e', 'l']) (by decide) (by decide) (by decide)
  have he : Spells (asciiCfg true false) (.kw "end") ['e', 'n', 'd'] :=
    .kw (cs := ['n', 'd']) (by decide) (by decide) (by decide)
  have kf : ∀ k r, Follows (asciiCfg true false) (.kw k) (';' :: r) := by
    intro k r c hc; simp at hc; subst hc; show (asciiCfg true false).varChar ';' = false; decide
  have sf : ∀ r, Follows (asciiCfg true false) (.sym .semi) r := fun r c hc => trivial
  exact .cons (l := []) (s := [';', 'e', 'n', 'd', ';']) h0 hm (kf _ _)
    (.cons (l := []) (w := [';']) (s := ['e', 'n', 'd', ';']) h0 hs (sf _)
      (.cons (l := []) (w := ['e', 'n', 'd']) (s := [';']) h0 he (kf _ _)
        (.cons (l := []) (w := [';']) (s := []) h0 hs (sf _) .nil)))

#print axioms C84_complete
#print axioms C84_text
#print axioms C84_sound_partial
#print axioms C84_unambiguous

end Pynare
