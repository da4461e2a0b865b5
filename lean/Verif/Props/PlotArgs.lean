import Verif.Model.PlotArgs
import Verif.Spec.PlotArgs
import Verif.Lemmas.Dict
import Verif.Props.Plot
/-!
# C191: further arguments of plots
-/

namespace Pynare

variable {α : Type}

theorem get?_append_new {d e : Dict α} {k : String} (h : k ∉ d.keys) : Dict.get? (d ++ e) k = e.get? k := by
  induction d with
  | nil => rfl
  | cons p d ih =>
    simp only [Dict.keys, List.map_cons, List.mem_cons, not_or] at h
    simp only [List.cons_append, Dict.get?]
    rw [if_neg (Ne.symm h.1)]
    exact ih h.2

theorem set_new {d : Dict α} {k : String} {v : α} (h : k ∉ d.keys) : d.set k v = d ++ [(k, v)] := by
  induction d with
  | nil => rfl
  | cons p d ih =>
    simp only [Dict.keys, List.map_cons, List.mem_cons, not_or] at h
    simp only [Dict.set, List.cons_append]
    rw [if_neg (Ne.symm h.1), ih h.2]

theorem erase_append_new {d e : Dict α} {k : String} {v : α} (h : k ∉ d.keys) : Dict.erase (d ++ (k, v) :: e) k = d ++ e := by
  induction d with
  | nil => simp [Dict.erase]
  | cons p d ih =>
    simp only [Dict.keys, List.map_cons, List.mem_cons, not_or] at h
    simp only [List.cons_append, Dict.erase]
    rw [if_neg (Ne.symm h.1), ih h.2]

theorem keys_filter_new {d : Dict α} {k : String} (f : String × α → Bool) (h : k ∉ d.keys) : k ∉ Dict.keys (d.filter f) := by
  intro hm
  obtain ⟨p, hp, rfl⟩ := List.mem_map.mp hm
  exact h (List.mem_map.mpr ⟨p, (List.mem_filter.mp hp).1, rfl⟩)

/-- whether an argument is one of the figure -/
def isFig (p : String × α) : Bool := decide (p.1 ∈ figureNames)

theorem popLoop_append : ∀ (l p : Dict α), Dict.keys (p ++ l) |>.Nodup →
    popLoop (Dict.keys l) (p.filter isFig, p.filter (fun q => !isFig q) ++ l) =
      ((p ++ l).filter isFig, (p ++ l).filter (fun q => !isFig q))
  | [], p, _ => by simp [popLoop, Dict.keys]
  | (k, v) :: l, p, hn => by
    have hk : k ∉ Dict.keys p := by
      intro hm
      simp only [Dict.keys, List.map_append, List.map_cons] at hn
      exact (List.nodup_append.mp hn).2.2 k hm k (.head _) rfl
    have ih := popLoop_append l (p ++ [(k, v)]) (by simpa using hn)
    simp only [Dict.keys, List.map_cons, popLoop]
    by_cases hf : k ∈ figureNames
    · rw [if_pos hf, get?_append_new (keys_filter_new _ hk)]
      simp only [Dict.get?, if_true]
      rw [set_new (keys_filter_new _ hk), erase_append_new (keys_filter_new _ hk)]
      have e : isFig (k, v) = true := by simpa [isFig] using hf
      simpa [List.filter_append, e, Dict.keys] using ih
    · rw [if_neg hf]
      have e : isFig (k, v) = false := by simpa [isFig] using hf
      simpa [List.filter_append, e, Dict.keys] using ih

/-- the loop parts the arguments -/
theorem popLoop_eq {d : Dict α} (hn : d.keys.Nodup) :
    popLoop d.keys ([], d) = (d.filter isFig, d.filter fun q => !isFig q) := by
  simpa using popLoop_append d [] (by simpa using hn)

theorem get?_filter {d : Dict α} (f : String × α → Bool) (k : String) {b : Bool} (hf : ∀ v, f (k, v) = b) :
    Dict.get? (d.filter f) k = if b then d.get? k else none := by
  induction d with
  | nil => cases b <;> rfl
  | cons p d ih =>
    obtain ⟨k', v⟩ := p
    by_cases hk : k' = k
    · subst hk
      rw [List.filter_cons, hf v]
      cases b
      · simpa using ih
      · simp [Dict.get?]
    · rw [List.filter_cons]
      split
      · simp only [Dict.get?, if_neg hk]; exact ih
      · simp only [Dict.get?, if_neg hk]; exact ih

theorem get?_setDefault (d : Dict α) (k k' : String) (v : α) :
    (setDefault d k v).get? k' = (d.get? k').or (if k = k' then some v else none) := by
  unfold setDefault
  cases h : d.get? k with
  | some w =>
    by_cases hk : k = k'
    · subst hk; simp [h]
    · simp [hk]
  | none =>
    simp only [Dict.get?_set]
    by_cases hk : k = k'
    · subst hk; simp [h]
    · simp [hk]

theorem keys_setDefault {d : Dict α} {k : String} {v : α} (hn : d.keys.Nodup) : (setDefault d k v).keys.Nodup := by
  unfold setDefault
  cases h : d.get? k with
  | some w => exact hn
  | none =>
    have hk := (Dict.get?_eq_none_iff d k).mp h
    simp only [set_new hk, Dict.keys, List.map_append]
    exact List.nodup_append.mpr ⟨hn, by simp, by
      intro a ha b hb e
      simp at hb
      subst hb; subst e
      exact hk ha⟩

theorem filter_setDefault {d : Dict α} {k : String} {v : α} (hk : k ∈ figureNames) :
    (setDefault d k v).filter (fun q => !isFig q) = d.filter fun q => !isFig q := by
  unfold setDefault
  cases h : d.get? k with
  | some w => rfl
  | none =>
    simp only [set_new ((Dict.get?_eq_none_iff d k).mp h), List.filter_append]
    simp [isFig, hk]

theorem figureArg_iff (k : String) : FigureArg k ↔ k ∈ figureNames := by
  constructor
  · intro h
    cases h <;> decide
  · intro h
    simp only [figureNames, List.mem_cons, List.not_mem_nil, or_false] at h
    rcases h with rfl | rfl | rfl | rfl | rfl | rfl | rfl | rfl | rfl | rfl | rfl | rfl | rfl | rfl | rfl | rfl | rfl | rfl | rfl <;>
      constructor

/-- what `plotArgs` does -/
theorem plotArgs_ok {n : Nat} {subs : Bool} {layout : PlotLayout} {kw fig lines : Dict PlotArg} (hn : kw.keys.Nodup)
    (h : plotArgs n subs layout kw = .ok (fig, lines)) :
    lines = kw.filter (fun q => !isFig q) ∧
      ∃ d : Dict PlotArg, d.keys.Nodup ∧ fig = d.filter isFig ∧
        ((subs = false ∧ d = setDefault kw "tight_layout" (.flag true)) ∨
          (subs = true ∧ ∃ r c, gridShape n layout = .ok (r, c) ∧
            d = setDefault (setDefault (setDefault kw "tight_layout" (.flag true)) "nrows" (.num r)) "ncols" (.num c))) := by
  unfold plotArgs at h
  simp only at h
  cases subs with
  | false =>
    simp only [Bool.false_eq_true, if_false] at h
    rw [popLoop_eq (keys_setDefault hn)] at h
    obtain ⟨rfl, rfl⟩ := Prod.mk.inj (Except.ok.inj h)
    exact ⟨filter_setDefault (by decide), _, keys_setDefault hn, rfl, .inl ⟨rfl, rfl⟩⟩
  | true =>
    simp only [if_true] at h
    cases hg : gridShape n layout with
    | error e => rw [hg] at h; cases h
    | ok rc =>
      obtain ⟨r, c⟩ := rc
      rw [hg] at h
      simp only at h
      have hd := keys_setDefault (k := "ncols") (v := .num c) (keys_setDefault (k := "nrows") (v := .num r)
        (keys_setDefault (k := "tight_layout") (v := .flag true) hn))
      rw [popLoop_eq hd] at h
      obtain ⟨rfl, rfl⟩ := Prod.mk.inj (Except.ok.inj h)
      refine ⟨?_, _, hd, rfl, .inr ⟨rfl, r, c, rfl, rfl⟩⟩
      rw [filter_setDefault (by decide), filter_setDefault (by decide), filter_setDefault (by decide)]

/-- **C191, who gets an argument.**  Each argument that is given is passed on unchanged, to the figure if it is one of the names
of a figure, and to the lines otherwise; the lines get nothing else, in the order given; the figure gets besides these only a tight
layout and, for subplots, the numbers of rows and columns of the layout, and only if they are not given. -/
theorem C191_split {n : Nat} {subs : Bool} {layout : PlotLayout} {kw fig lines : Dict PlotArg} (hn : kw.keys.Nodup)
    (h : plotArgs n subs layout kw = .ok (fig, lines)) :
    (∀ k v, kw.get? k = some v → (FigureArg k → fig.get? k = some v ∧ lines.get? k = none) ∧
      (¬ FigureArg k → lines.get? k = some v ∧ fig.get? k = none)) ∧
    lines.Sublist kw ∧
    (∀ k v, fig.get? k = some v → kw.get? k = none → (k = "tight_layout" ∧ v = .flag true) ∨
      (subs = true ∧ ∃ r c, gridShape n layout = .ok (r, c) ∧ ((k = "nrows" ∧ v = .num r) ∨ (k = "ncols" ∧ v = .num c)))) := by
  obtain ⟨rfl, d, hd, rfl, hc⟩ := plotArgs_ok hn h
  have hfig : ∀ k, Dict.get? (d.filter isFig) k = if decide (k ∈ figureNames) then d.get? k else none :=
    fun k => get?_filter _ k (fun v => rfl)
  have hlin : ∀ k, Dict.get? (kw.filter fun q => !isFig q) k = if !decide (k ∈ figureNames) then kw.get? k else none :=
    fun k => get?_filter _ k (fun v => rfl)
  refine ⟨fun k v hk => ?_, List.filter_sublist, fun k v hv hk => ?_⟩
  · have hdk : d.get? k = some v := by
      rcases hc with ⟨-, rfl⟩ | ⟨-, r, c, -, rfl⟩ <;> simp [get?_setDefault, hk]
    rw [hfig, hlin, figureArg_iff]
    by_cases hf : k ∈ figureNames
    · simp [hf, hdk]
    · simp [hf, hk]
  · rw [hfig] at hv
    split at hv
    · rcases hc with ⟨-, rfl⟩ | ⟨hs, r, c, hg, rfl⟩
      · simp only [get?_setDefault, hk, Option.none_or] at hv
        split at hv
        · rename_i e
          exact .inl ⟨e.symm, (Option.some.inj hv).symm⟩
        · cases hv
      · simp only [get?_setDefault, hk, Option.none_or] at hv
        by_cases h1 : "tight_layout" = k
        · simp [h1] at hv
          exact .inl ⟨h1.symm, hv.symm⟩
        · refine .inr ⟨hs, r, c, hg, ?_⟩
          by_cases h2 : "nrows" = k
          · simp [h1, h2] at hv
            exact .inl ⟨h2.symm, hv.symm⟩
          · by_cases h3 : "ncols" = k
            · simp [h1, h2, h3] at hv
              exact .inr ⟨h3.symm, hv.symm⟩
            · simp [h1, h2, h3] at hv
    · cases hv

/-- the shape of the axes for subplots -/
theorem axesOf_subs {n r c : Nat} {layout : PlotLayout} {kw fig lines : Dict PlotArg} (hn : kw.keys.Nodup)
    (hg : gridShape n layout = .ok (r, c)) (h : plotArgs n true layout kw = .ok (fig, lines)) :
    fig.get? "nrows" = some ((kw.get? "nrows").getD (.num r)) ∧ fig.get? "ncols" = some ((kw.get? "ncols").getD (.num c)) ∧
      fig.get? "squeeze" = kw.get? "squeeze" := by
  obtain ⟨rfl, d, hd, rfl, hc⟩ := plotArgs_ok hn h
  have hfig : ∀ k, Dict.get? (d.filter isFig) k = if decide (k ∈ figureNames) then d.get? k else none :=
    fun k => get?_filter _ k (fun v => rfl)
  rcases hc with ⟨hs, -⟩ | ⟨-, r', c', hg', rfl⟩
  · cases hs
  obtain ⟨rfl, rfl⟩ := Prod.mk.inj (Except.ok.inj (hg.symm.trans hg'))
  rw [hfig, hfig, hfig]
  refine ⟨?_, ?_, ?_⟩
  · simp [figureNames, get?_setDefault]
  · simp [figureNames, get?_setDefault]
  · simp [figureNames, get?_setDefault]

theorem plotArgs_total {n r c : Nat} {layout : PlotLayout} {kw : Dict PlotArg} (hg : gridShape n layout = .ok (r, c)) :
    ∃ fig lines, plotArgs n true layout kw = .ok (fig, lines) := by
  unfold plotArgs
  simp only [if_true, hg]
  exact ⟨_, _, rfl⟩

/-- **C191, rows and columns.**  For subplots the layout states the numbers of rows and columns that are not given; those that
are given take precedence over it. -/
theorem C191_shape {n r c : Nat} {layout : PlotLayout} {kw : Dict PlotArg} (hn : kw.keys.Nodup)
    (hg : gridShape n layout = .ok (r, c)) (hq : kw.get? "squeeze" ≠ some (.flag false)) {r' c' : Nat}
    (hr : (kw.get? "nrows").getD (.num r) = .num r') (hc : (kw.get? "ncols").getD (.num c) = .num c') :
    (arrangeWith n true layout kw).map Prod.fst = arrangePlot n true (.pair r' c') := by
  obtain ⟨fig, lines, h⟩ := plotArgs_total (kw := kw) hg
  obtain ⟨h1, h2, h3⟩ := axesOf_subs hn hg h
  rw [hr] at h1
  rw [hc] at h2
  have ha : axesOf fig = subplots r' c' := by
    unfold axesOf
    rw [h1, h2, h3]
    simp [hq]
  unfold arrangeWith
  rw [h, arrange_pair]
  simp only [ha]
  rcases subplots r' c' with e | a
  · rfl
  · cases a <;> rfl

/-- **C191, one series.**  With `squeeze=False` every series is drawn exactly once, whatever the numbers of series, rows and
columns are, also for a single series. -/
theorem C191_squeeze {n r c : Nat} {layout : PlotLayout} {kw : Dict PlotArg} (hn : kw.keys.Nodup)
    (hg : gridShape n layout = .ok (r, c)) (hq : kw.get? "squeeze" = some (.flag false)) {r' c' : Nat}
    (hr : (kw.get? "nrows").getD (.num r) = .num r') (hc : (kw.get? "ncols").getD (.num c) = .num c')
    (hr0 : 0 < r') (hc0 : 0 < c') :
    ∃ ds lines, arrangeWith n true layout kw = .ok (ds, lines) ∧ DrawsAll n ds ∧ WithinGrid r' c' ds := by
  obtain ⟨fig, lines, h⟩ := plotArgs_total (kw := kw) hg
  obtain ⟨h1, h2, h3⟩ := axesOf_subs hn hg h
  rw [hr] at h1
  rw [hc] at h2
  have ha : axesOf fig = .ok (.grid r' c') := by
    unfold axesOf
    rw [h1, h2, h3]
    simp [hq]
    omega
  refine ⟨plotGrid n r' c', lines, ?_, plotGrid_drawsAll n hr0 hc0, plotGrid_within n hc0⟩
  unfold arrangeWith
  rw [h]
  simp only [ha, if_true]

/-- **C191, one axes.**  Without subplots all series are drawn on one axes if neither rows nor columns are given, nor
`squeeze=False`; if more than one row or column is given, nothing is drawn. -/
theorem C191_joint {n : Nat} {layout : PlotLayout} {kw : Dict PlotArg} (hn : kw.keys.Nodup) {r c : Nat}
    (hr : (kw.get? "nrows").getD (.num 1) = .num r) (hc : (kw.get? "ncols").getD (.num 1) = .num c)
    (hq : kw.get? "squeeze" ≠ some (.flag false)) :
    (r = 1 ∧ c = 1 → ∃ lines, arrangeWith n false layout kw = .ok ([⟨0, 0, List.range n⟩], lines)) ∧
      (0 < r ∧ 0 < c ∧ ¬ (r = 1 ∧ c = 1) → arrangeWith n false layout kw = .error .attributeError) := by
  obtain ⟨fig, lines, h⟩ : ∃ fig lines, plotArgs n false layout kw = .ok (fig, lines) := ⟨_, _, rfl⟩
  obtain ⟨-, d, hd, hf, hcs⟩ := plotArgs_ok hn h
  have hfig : ∀ k, Dict.get? fig k = if decide (k ∈ figureNames) then d.get? k else none :=
    fun k => by rw [hf]; exact get?_filter _ k (fun v => rfl)
  rcases hcs with ⟨-, rfl⟩ | ⟨hs, -⟩
  swap
  · cases hs
  have h1 : fig.get? "nrows" = kw.get? "nrows" := by rw [hfig]; simp [figureNames, get?_setDefault]
  have h2 : fig.get? "ncols" = kw.get? "ncols" := by rw [hfig]; simp [figureNames, get?_setDefault]
  have h3 : fig.get? "squeeze" = kw.get? "squeeze" := by rw [hfig]; simp [figureNames, get?_setDefault]
  have ha : axesOf fig = subplots r c := by
    unfold axesOf
    rw [h1, h2, h3, hr, hc]
    simp [hq]
  unfold arrangeWith
  rw [h]
  simp only [ha]
  constructor
  · rintro ⟨rfl, rfl⟩
    exact ⟨lines, rfl⟩
  · rintro ⟨hr0, hc0, h11⟩
    unfold subplots
    rw [if_neg (by omega), if_neg h11]
    by_cases hc1 : c = 1
    · rw [if_pos hc1]; rfl
    · rw [if_neg hc1]
      by_cases hr1 : r = 1
      · rw [if_pos hr1]; rfl
      · rw [if_neg hr1]; rfl

/-- both cases of `C191_joint` -/
example : arrangeWith 3 false (.text "rect") [("color", .obj 1)] = .ok ([⟨0, 0, [0, 1, 2]⟩], [("color", .obj 1)]) ∧
    arrangeWith 3 false (.text "rect") [("nrows", .num 2)] = .error .attributeError := by
  decide +kernel

/-- **C191, lines.**  Whatever is drawn, each axes is drawn on with exactly the arguments given that are none of the figure. -/
theorem C191_lines {n : Nat} {subs : Bool} {layout : PlotLayout} {kw lines : Dict PlotArg} {ds : List Drawn} (hn : kw.keys.Nodup)
    (h : arrangeWith n subs layout kw = .ok (ds, lines)) :
    lines.Sublist kw ∧ ∀ k v, lines.get? k = some v ↔ kw.get? k = some v ∧ ¬ FigureArg k := by
  obtain ⟨fig, hp⟩ : ∃ fig, plotArgs n subs layout kw = .ok (fig, lines) := by
    unfold arrangeWith at h
    cases hp : plotArgs n subs layout kw with
    | error e => rw [hp] at h; cases h
    | ok fl =>
      obtain ⟨fig, l⟩ := fl
      rw [hp] at h
      simp only at h
      cases ha : axesOf fig with
      | error e => rw [ha] at h; cases h
      | ok a =>
        rw [ha] at h
        cases subs <;> cases a <;> simp at h <;> exact ⟨fig, by rw [h.2]⟩
  obtain ⟨rfl, -⟩ := plotArgs_ok hn hp
  refine ⟨List.filter_sublist, fun k v => ?_⟩
  rw [get?_filter (b := !decide (k ∈ figureNames)) _ k (fun v => rfl), figureArg_iff]
  by_cases hf : k ∈ figureNames <;> simp [hf]

/-- the hypotheses of `C191_lines` for each shape of axes -/
example : (Dict.keys [("dpi", PlotArg.num 90), ("color", .obj 1)]).Nodup ∧
    (∃ ds, arrangeWith 3 true (.text "column") [("dpi", .num 90), ("color", .obj 1)] = .ok (ds, [("color", .obj 1)])) ∧
    (∃ ds, arrangeWith 4 true (.text "rect") [("dpi", .num 90), ("color", .obj 1)] = .ok (ds, [("color", .obj 1)])) ∧
    ∃ ds, arrangeWith 4 false (.text "rect") [("dpi", .num 90), ("color", .obj 1)] = .ok (ds, [("color", .obj 1)]) :=
  ⟨by decide, ⟨[⟨0, 0, [0]⟩, ⟨0, 1, [1]⟩, ⟨0, 2, [2]⟩], by decide +kernel⟩,
    ⟨[⟨0, 0, [0]⟩, ⟨0, 1, [1]⟩, ⟨1, 0, [2]⟩, ⟨1, 1, [3]⟩], by decide +kernel⟩, ⟨[⟨0, 0, [0, 1, 2, 3]⟩], by decide +kernel⟩⟩

/-- `color` goes to the lines, `linewidth` to the figure -/
example : (Dict.keys [("color", PlotArg.obj 1), ("linewidth", .num 2)]).Nodup ∧
    plotArgs 4 true (.text "rect") [("color", .obj 1), ("linewidth", .num 2)] =
      .ok ([("linewidth", .num 2), ("tight_layout", .flag true), ("nrows", .num 2), ("ncols", .num 2)], [("color", .obj 1)]) := by
  decide +kernel

/-- the hypotheses of `C191_shape`: two rows are given, and a layout of one column -/
example : (Dict.keys [("nrows", PlotArg.num 2)]).Nodup ∧ gridShape 3 (.text "column") = .ok (3, 1) ∧
    Dict.get? [("nrows", PlotArg.num 2)] "squeeze" ≠ some (.flag false) ∧
    (Dict.get? [("nrows", PlotArg.num 2)] "nrows").getD (.num 3) = .num 2 ∧
    arrangeWith 3 true (.text "column") [("nrows", PlotArg.num 2)] = .ok ([⟨0, 0, [0]⟩, ⟨0, 1, [1]⟩], []) := by
  decide +kernel

/-- a single series is drawn with `squeeze=False`, and not without -/
example : (Dict.keys [("squeeze", PlotArg.flag false)]).Nodup ∧ gridShape 1 (.text "rect") = .ok (1, 1) ∧
    arrangeWith 1 true (.text "rect") [("squeeze", .flag false)] = .ok ([⟨0, 0, [0]⟩], []) ∧
    arrangeWith 1 true (.text "rect") [] = .error .attributeError := by
  decide +kernel

#print axioms C191_split
#print axioms C191_shape
#print axioms C191_squeeze
#print axioms C191_joint
#print axioms C191_lines

end Pynare
