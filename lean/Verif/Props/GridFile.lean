/-
Property theorems C105: the data files of the finite difference programs and the reader for time data.
-/
import Verif.GridFileModel
import Verif.Props.Vtk
import Verif.Props.Fdm
import Verif.Props.Heat

set_option linter.unusedSectionVars false
set_option linter.unusedSimpArgs false

namespace NS.Props.GridFile
open NS NS.Vtk
open NS.Props.Vtk (split words split_line split_last split_lines words_sp words_last nl_words decimal decimal_showNat forRange_text word_showNat Word)
open NS.Iterative (fl fl_length)
variable {V : Type}

/-! ### Specification: a text as a table -/

/-- the table in a text: one row of words for each line; a final line break does not start a new line -/
def table (t : Text) : List (List Text) := ((split '\n' t).dropLast).map words

/-- the words for the values of a grid of `xc * yc` points: row `y`, column `x` -/
def gridRows (showV : V → Text) (xc yc : Nat) (v : Nat → Nat → V) : List (List Text) :=
  (List.range yc).map fun y => (List.range xc).map fun x => showV (v x y)

/-! ### Proofs -/

theorem table_lines {rows : List (List Text)} (h : ∀ r ∈ rows, ∀ w ∈ r, Word w) : table (rows.flatMap fun r => r.flatMap (· ++ sp) ++ nl) = rows := by
  have e : (rows.flatMap fun r => r.flatMap (· ++ sp) ++ nl) = (rows.map fun r => r.flatMap (· ++ sp)).flatMap (· ++ ['\n']) := by
    rw [List.flatMap_map]; rfl
  unfold table
  rw [e, split_lines _ (fun l hl => by obtain ⟨r, hr, rfl⟩ := List.mem_map.1 hl; exact nl_words (h r hr)), List.dropLast_concat, List.map_map]
  conv_rhs => rw [← List.map_id rows]
  exact List.map_congr_left fun r hr => words_sp (h r hr)

theorem rowText {showV : V → Text} {x : List V} {d : V} {ix : Nat → Nat} {xc : Nat} (h : ∀ i < xc, ix i < x.length) (out : Text) :
    (forRange 0 xc out fun xx out => do
      let v ← vecAt x (ix xx)
      return out ++ (showV v ++ sp)) = .ok (out ++ ((List.range xc).map fun i => showV (x.getD (ix i) d)).flatMap (· ++ sp)) := by
  have := forRange_text (f := fun xx out => do
      let v ← vecAt x (ix xx)
      return out ++ (showV v ++ sp)) (g := fun i => showV (x.getD (ix i) d) ++ sp) xc 0 (fun i _ hi out => by
        rw [vecAt_ok (h i (by omega))]
        simp [List.getD, List.getElem?_eq_getElem (h i (by omega))]) out
  rw [Nat.zero_add] at this
  rw [this, List.flatMap_map, List.range_eq_range']

theorem rowsText {showV : V → Text} {x : List V} {d : V} {ix : Nat → Nat → Nat} {xc yc : Nat} (h : ∀ y < yc, ∀ i < xc, ix y i < x.length) (out : Text) :
    (forRange 0 yc out fun y out => do
      let out ← forRange 0 xc out fun xx out => do
        let v ← vecAt x (ix y xx)
        return out ++ (showV v ++ sp)
      return out ++ nl) = .ok (out ++ (gridRows showV xc yc fun i y => x.getD (ix y i) d).flatMap fun r => r.flatMap (· ++ sp) ++ nl) := by
  have := forRange_text (f := fun y out => do
      let out ← forRange 0 xc out fun xx out => do
        let v ← vecAt x (ix y xx)
        return out ++ (showV v ++ sp)
      return out ++ nl) (g := fun y => ((List.range xc).map fun i => showV (x.getD (ix y i) d)).flatMap (· ++ sp) ++ nl) yc 0 (fun y _ hy out => by
        rw [rowText (d := d) (fun i hi => h y (by omega) i hi), ok_bind]
        simp) out
  rw [Nat.zero_add] at this
  rw [this]
  unfold gridRows
  rw [List.flatMap_map, List.range_eq_range' (n := yc)]

section poisson
open NS.Fdm NS.Props.Fdm NS.MatOps
variable {T : Type} [Field T] [LinearOrder T] [IsStrictOrderedRing T] {M : Type} [MatOps M T] [LawfulMat M T]

theorem dataText_ok {showV : V → Text} {p : Poisson T} {x : List V} (hx : x.length = p.xc * p.yc) (d : V) :
    dataText showV p x = .ok ((gridRows showV p.xc p.yc fun i y => x.getD (y * p.xc + i) d).flatMap fun r => r.flatMap (· ++ sp) ++ nl) := by
  have := rowsText (showV := showV) (x := x) (d := d) (ix := fun y i => p.lin i y) (xc := p.xc) (yc := p.yc) (fun y hy i hi => by rw [hx]; exact lin_lt hi hy) []
  rw [List.nil_append] at this
  exact this

/-- C105: whatever the solver returns, `poisson_fdm.dat` has one line for each `y` with one word for each `x`: the value at the grid point `(x, y)`. -/
theorem C105_poisson {showT : Fl T → Text} (hT : ∀ t, Word (showT t)) {p : Poisson T} {w : T} {maxIter it : Nat} {eps : T} {u : Fin (p.xc * p.yc) → T}
    (h : solve (M := M) p w maxIter eps = .ok (fl u, it)) :
    ∃ t, run (M := M) showT p w maxIter eps = .ok t ∧ table t = gridRows showT p.xc p.yc (fun x y => Fl.fin (val2 p u x y)) := by
  unfold run
  rw [h, ok_bind]
  have e := dataText_ok (showV := showT) (p := p) (x := fl u) (fl_length u) (Fl.fin 0)
  refine ⟨_, e, ?_⟩
  rw [table_lines]
  · unfold gridRows
    refine List.map_congr_left fun y hy => List.map_congr_left fun x hx => ?_
    rw [List.mem_range] at hx hy
    have hl : y * p.xc + x < p.xc * p.yc := lin_lt hx hy
    have e1 : val2 p u x y = u ⟨y * p.xc + x, hl⟩ := by unfold val2 NS.Grid.ev; exact dif_pos hl
    simp only [e1]
    unfold fl
    rw [List.getD, List.getElem?_ofFn, dif_pos hl]
    rfl
  · intro r hr w hw
    obtain ⟨y, _, rfl⟩ := List.mem_map.1 hr
    obtain ⟨x, _, rfl⟩ := List.mem_map.1 hw
    exact hT _
end poisson

section heat
open NS.Heat NS.Props.Heat NS.MatOps NS.TimeData
variable {T : Type} [Field T] [LinearOrder T] [IsStrictOrderedRing T] {M : Type} [MatOps M T] [LawfulMat M T]

/-- the text of a table -/
def tableText (rows : List (List Text)) : Text := rows.flatMap fun r => r.flatMap (· ++ sp) ++ nl

/-- the table in the file: a header line of three numbers for each of time, x and y, an empty line, and for every time step the rows of the grid and an empty line -/
def heatRows (showV : V → Text) (ends : Text × Text × Text) (tc xc yc : Nat) (v : Nat → Nat → Nat → V) : List (List Text) :=
  [[showNat tc, showNat 0, ends.1], [showNat xc, showNat 0, ends.2.1], [showNat yc, showNat 0, ends.2.2], []] ++
    (List.range tc).flatMap fun t => gridRows showV xc yc (v t) ++ [[]]

theorem heatText_ok {showV : V → Text} {ends : Text × Text × Text} {p : Problem T} {x : List V} (hx : x.length = p.d) (d : V) :
    dataText showV ends p x = .ok (showNat p.tc ++ sp ++ showNat 0 ++ sp ++ ends.1 ++ nl ++ (showNat p.xc ++ sp ++ showNat 0 ++ sp ++ ends.2.1 ++ nl) ++
      (showNat p.yc ++ sp ++ showNat 0 ++ sp ++ ends.2.2 ++ nl) ++ nl ++
      tableText ((List.range p.tc).flatMap fun t => gridRows showV p.xc p.yc (fun i y => x.getD (p.lin t i y) d) ++ [[]])) := by
  unfold Heat.dataText
  have := forRange_text (f := fun t out => do
    let out ← forRange 0 p.yc out fun y out => do
      let out ← forRange 0 p.xc out fun xx out => do
        let v ← vecAt x (p.lin t xx y)
        return out ++ (showV v ++ sp)
      return out ++ nl
    return out ++ nl) (g := fun t => tableText (gridRows showV p.xc p.yc (fun i y => x.getD (p.lin t i y) d) ++ [[]])) p.tc 0 (fun t _ ht out => by
      rw [rowsText (d := d) (ix := fun y i => p.lin t i y) (fun y hy i hi => by rw [hx]; exact lin_lt (by omega) hi hy), ok_bind]
      simp [tableText]) (showNat p.tc ++ sp ++ showNat 0 ++ sp ++ ends.1 ++ nl ++ (showNat p.xc ++ sp ++ showNat 0 ++ sp ++ ends.2.1 ++ nl) ++
      (showNat p.yc ++ sp ++ showNat 0 ++ sp ++ ends.2.2 ++ nl) ++ nl)
  rw [Nat.zero_add] at this
  refine this.trans ?_
  unfold tableText
  rw [List.range_eq_range' (n := p.tc), List.flatMap_assoc]

/-- the lines of the file -/
def heatLines (showV : V → Text) (ends : Text × Text × Text) (tc xc yc : Nat) (v : Nat → Nat → Nat → V) : List Text :=
  [[showNat tc, showNat 0], [showNat xc, showNat 0], [showNat yc, showNat 0]].zipWith (fun a b => a.flatMap (· ++ sp) ++ b) [ends.1, ends.2.1, ends.2.2] ++
    ([] : Text) :: ((List.range tc).flatMap fun t => gridRows showV xc yc (v t) ++ [[]]).map fun r => r.flatMap (· ++ sp)

theorem heat_lines (showV : V → Text) (ends : Text × Text × Text) (tc xc yc : Nat) (v : Nat → Nat → Nat → V) :
    showNat tc ++ sp ++ showNat 0 ++ sp ++ ends.1 ++ nl ++ (showNat xc ++ sp ++ showNat 0 ++ sp ++ ends.2.1 ++ nl) ++
      (showNat yc ++ sp ++ showNat 0 ++ sp ++ ends.2.2 ++ nl) ++ nl ++
      tableText ((List.range tc).flatMap fun t => gridRows showV xc yc (v t) ++ [[]]) = (heatLines showV ends tc xc yc v).flatMap (· ++ nl) := by
  unfold heatLines tableText
  simp [List.flatMap_map, List.append_assoc]

variable {showV : V → Text} (hV : ∀ t, Word (showV t)) {ends : Text × Text × Text} (he1 : Word ends.1) (he2 : Word ends.2.1) (he3 : Word ends.2.2)

include hV in
theorem grid_word {xc yc : Nat} {v : Nat → Nat → V} : ∀ r ∈ gridRows showV xc yc v, ∀ w ∈ r, Word w := by
  intro r hr w hw
  obtain ⟨y, _, rfl⟩ := List.mem_map.1 hr
  obtain ⟨x, _, rfl⟩ := List.mem_map.1 hw
  exact hV _

include hV in
theorem grids_word {tc xc yc : Nat} {v : Nat → Nat → Nat → V} : ∀ r ∈ (List.range tc).flatMap (fun t => gridRows showV xc yc (v t) ++ [[]]), ∀ w ∈ r, Word w := by
  intro r hr
  obtain ⟨t, _, hr⟩ := List.mem_flatMap.1 hr
  rcases List.mem_append.1 hr with hr | hr
  · exact grid_word hV r hr
  · rw [List.mem_singleton] at hr
    subst hr; simp

include hV he1 he2 he3 in
theorem heat_no_nl {tc xc yc : Nat} {v : Nat → Nat → Nat → V} : ∀ l ∈ heatLines showV ends tc xc yc v, '\n' ∉ l := by
  have w3 : ∀ {n : Nat} {e : Text}, Word e → '\n' ∉ [showNat n, showNat 0].flatMap (· ++ sp) ++ e := by
    intro n e he h
    rcases List.mem_append.1 h with h | h
    · refine nl_words ?_ h
      intro x hx
      rcases List.mem_cons.1 hx with rfl | hx
      · exact word_showNat _
      · rw [List.mem_singleton] at hx; rw [hx]; exact word_showNat _
    · exact (he.2 _ h).2.1 rfl
  intro l hl
  unfold heatLines at hl
  rcases List.mem_append.1 hl with hl | hl
  · simp only [List.zipWith_cons_cons, List.zipWith_nil_right, List.mem_cons, List.not_mem_nil, or_false] at hl
    rcases hl with rfl | rfl | rfl
    · exact w3 he1
    · exact w3 he2
    · exact w3 he3
  · rcases List.mem_cons.1 hl with rfl | hl
    · simp
    · obtain ⟨r, hr, rfl⟩ := List.mem_map.1 hl
      exact nl_words (grids_word hV r hr)

theorem words_header {n : Nat} {e : Text} (he : Word e) : words ([showNat n, showNat 0].flatMap (· ++ sp) ++ e) = [showNat n, showNat 0, e] :=
  words_last (ws := [showNat n, showNat 0]) (fun x hx => by
    rcases List.mem_cons.1 hx with rfl | hx
    · exact word_showNat _
    · rw [List.mem_singleton] at hx; rw [hx]; exact word_showNat _) he

/-- the result of the writer as a list of lines -/
theorem heatText_lines {p : Problem T} (u : Fin p.d → V) (d : V) (hd : 0 < p.d) :
    Heat.dataText showV ends p (List.ofFn u) = .ok ((heatLines showV ends p.tc p.xc p.yc fun t x y => if h : (t * p.yc + y) * p.xc + x < p.d then u ⟨_, h⟩ else d).flatMap (· ++ nl)) := by
  rw [heatText_ok (by simp) d, heat_lines]
  congr 4
  funext t x y
  rw [lin_eq, List.getD, List.getElem?_ofFn]
  split_ifs with h
  · simp
  · simp

include hV he1 he2 he3 in
theorem table_heat {tc xc yc : Nat} {v : Nat → Nat → Nat → V} : table ((heatLines showV ends tc xc yc v).flatMap (· ++ nl)) = heatRows showV ends tc xc yc v := by
  unfold table
  rw [show (fun l : Text => l ++ nl) = (· ++ ['\n']) from rfl, split_lines _ (heat_no_nl hV he1 he2 he3), List.dropLast_concat]
  unfold heatLines heatRows
  simp only [List.zipWith_cons_cons, List.zipWith_nil_right, List.map_append, List.map_cons, List.map_nil, List.map_map, words_header he1, words_header he2, words_header he3]
  have : words [] = [] := rfl
  rw [this]
  simp only [List.cons_append, List.nil_append]
  congr 4
  conv_rhs => rw [← List.map_id ((List.range tc).flatMap _)]
  exact List.map_congr_left fun r hr => words_sp (grids_word hV r hr)

include he1 he2 he3 in
/-- C105: whatever the solver returns, `heat_data.dat` has the header lines, an empty line, and for every time step one line for each `y` with one word for each `x` and an empty line -/
theorem C105_heat {showT : Fl T → Text} (hT : ∀ t, Word (showT t)) {p : Problem T} {w : T} {maxIter it : Nat} {eps : T} {u : Fin p.d → T} (hd : 0 < p.d)
    (h : solve (M := M) p w maxIter eps = .ok (fl u, it)) :
    ∃ t, run (M := M) showT ends p w maxIter eps = .ok t ∧ table t = heatRows showT ends p.tc p.xc p.yc (fun t x y => Fl.fin (val3 p u t x y)) := by
  unfold run
  rw [h, ok_bind]
  refine ⟨_, heatText_lines (fun i => Fl.fin (u i)) (Fl.fin 0) hd, ?_⟩
  rw [table_heat hT he1 he2 he3]
  congr 1
  funext t x y
  unfold val3 NS.Grid.ev
  split_ifs <;> rfl

/-! ### The reader -/

theorem lineWords_eq : ∀ (l w : Text), ' ' ∉ w → lineWords l w = (split ' ' (w ++ l)).filter (· ≠ [])
  | [], w, h => by
    rw [List.append_nil, split_last h, lineWords]
    split_ifs with hw <;> simp [hw]
  | c :: l, w, h => by
    rw [lineWords]
    split_ifs with hc hw
    · subst hc; subst hw
      rw [split_line h, lineWords_eq l [] (by simp)]
      simp
    · subst hc
      rw [split_line h, lineWords_eq l [] (by simp)]
      simp [hw]
    · rw [lineWords_eq l (w ++ [c]) (by simp [h, Ne.symm hc]), List.append_assoc]
      rfl

theorem lineWords_words (l : Text) : lineWords l [] = words l := lineWords_eq l [] (by simp)

theorem fileLines_step : ∀ (l w r : Text), '\n' ∉ l → fileLines (l ++ '\n' :: r) w = (w ++ l) :: fileLines r []
  | [], w, r, _ => by simp [fileLines]
  | c :: l, w, r, h => by
    rw [List.mem_cons, not_or] at h
    rw [List.cons_append, fileLines, if_neg (Ne.symm h.1), fileLines_step l _ r h.2]
    simp

theorem fileLines_lines {ls : List Text} (h : ∀ l ∈ ls, '\n' ∉ l) : fileLines (ls.flatMap (· ++ nl)) [] = ls := by
  induction ls with
  | nil => rfl
  | cons l ls ih =>
    rw [List.flatMap_cons, List.append_assoc]
    show fileLines (l ++ '\n' :: _) [] = _
    rw [fileLines_step _ _ _ (h l (by simp))]
    exact congrArg (l :: ·) (ih (fun x hx => h x (by simp [hx])))

theorem readRows_ok {width : Nat} {rows : List (List Text)} (h : ∀ r ∈ rows, r.length = width ∧ ∀ w ∈ r, Word w) (rest : List Text) :
    readRows width rows.length ((rows.map fun r => r.flatMap (· ++ sp)) ++ rest) = some (rows, rest) := by
  induction rows with
  | nil => rfl
  | cons r rows ih =>
    have h1 := h r (by simp)
    rw [List.map_cons, List.cons_append, List.length_cons, readRows, lineWords_words, words_sp h1.2, ih (fun x hx => h x (by simp [hx]))]
    simp [assign, h1.1]

include hV in
theorem readSteps_ok {tc n : Nat} (v : Nat → Nat → Nat → V) (a : Nat) (last : Text) :
    readSteps n n tc (last :: ((List.range' a tc).flatMap fun t => gridRows showV n n (v t) ++ [[]]).map fun r => r.flatMap (· ++ sp)) =
      some ((List.range' a tc).map fun t => gridRows showV n n (v t)) := by
  induction tc generalizing a last with
  | zero => rfl
  | succ tc ih =>
    have hr := readRows_ok (width := n) (rows := gridRows showV n n (v a)) (fun r hr => ⟨by
      obtain ⟨y, _, rfl⟩ := List.mem_map.1 hr
      simp, grid_word hV r hr⟩) ([] :: ((List.range' (a + 1) tc).flatMap fun t => gridRows showV n n (v t) ++ [[]]).map fun r => r.flatMap (· ++ sp))
    have hl : (gridRows showV n n (v a)).length = n := by simp [gridRows]
    rw [hl] at hr
    rw [readSteps, List.range'_succ, List.flatMap_cons, List.map_append, List.map_append, List.drop_succ_cons, List.drop_zero, List.append_assoc]
    simp only [List.map_cons, List.map_nil, List.flatMap_nil, List.cons_append, List.nil_append]
    rw [hr]
    simp only [Option.bind_eq_bind, Option.bind_some]
    rw [ih]
    rfl

theorem number_showNat (n : Nat) : number (showNat n) = n := decimal_showNat n

include he1 he2 he3 hV in
theorem read_header {tc xc yc : Nat} {v : Nat → Nat → Nat → V} : TimeData.read ((heatLines showV ends tc xc yc v).flatMap (· ++ nl)) =
    (readSteps xc yc tc (([] : Text) :: ((List.range tc).flatMap fun t => gridRows showV xc yc (v t) ++ [[]]).map fun r => r.flatMap (· ++ sp))).map
      fun m => (m, [(showNat 0, ends.1), (showNat 0, ends.2.1), (showNat 0, ends.2.2)]) := by
  unfold TimeData.read
  rw [fileLines_lines (heat_no_nl hV he1 he2 he3)]
  unfold heatLines
  simp only [List.zipWith_cons_cons, List.zipWith_nil_right, List.cons_append, List.nil_append, header, lineWords_words, words_header he1, words_header he2, words_header he3,
    Option.bind_eq_bind, Option.bind_some, number_showNat]
  cases readSteps xc yc tc _ <;> rfl

include he1 he2 he3 hV in
/-- C105 (partial): for equal numbers of points in x and y direction the reader `readTimeDataFile.m` reads the file back: page `t`, row `y`, column `x` is the value at time `t` and
point `(x, y)`, and the scales are those of time, x and y.  (The comment of the reader says `M(x,y,t)`: rows and columns are exchanged.) -/
theorem C105_reader_partial {p : Problem T} (hxy : p.xc = p.yc) (u : Fin p.d → V) (d : V) (hd : 0 < p.d) :
    ∃ t, Heat.dataText showV ends p (List.ofFn u) = .ok t ∧
      TimeData.read t = some ((List.range p.tc).map (fun t => gridRows showV p.xc p.yc fun x y => if h : (t * p.yc + y) * p.xc + x < p.d then u ⟨_, h⟩ else d),
        [(showNat 0, ends.1), (showNat 0, ends.2.1), (showNat 0, ends.2.2)]) := by
  refine ⟨_, heatText_lines u d hd, ?_⟩
  rw [read_header hV he1 he2 he3, hxy, List.range_eq_range' (n := p.tc), readSteps_ok hV]
  rfl

include he1 he2 he3 hV in
/-- C105 (the full statement fails): with different numbers of points in x and y direction (at least 2 in x direction) the reader stops with an error on every file of the program. -/
theorem C105_reader_fails {p : Problem T} (hxy : p.xc ≠ p.yc) (hx : 2 ≤ p.xc) (u : Fin p.d → V) (hd : 0 < p.d) :
    ∃ t, Heat.dataText showV ends p (List.ofFn u) = .ok t ∧ TimeData.read t = none := by
  have hpos := pos_of_lt hd
  obtain ⟨tc, htc⟩ : ∃ n, p.tc = n + 1 := ⟨p.tc - 1, by omega⟩
  obtain ⟨xc, hxc⟩ : ∃ n, p.xc = n + 2 := ⟨p.xc - 2, by omega⟩
  obtain ⟨yc, hyc⟩ : ∃ n, p.yc = n + 1 := ⟨p.yc - 1, by omega⟩
  refine ⟨_, heatText_lines u (u ⟨0, hd⟩) hd, ?_⟩
  generalize (fun t x y => if h : (t * p.yc + y) * p.xc + x < p.d then u ⟨_, h⟩ else u ⟨0, hd⟩ : Nat → Nat → Nat → V) = v
  rw [read_header hV he1 he2 he3]
  rw [Option.map_eq_none_iff]
  have hw : words (((List.range p.xc).map fun x => showV (v 0 x 0)).flatMap (· ++ sp)) = (List.range p.xc).map fun x => showV (v 0 x 0) :=
    words_sp (fun w hw => by obtain ⟨x, _, rfl⟩ := List.mem_map.1 hw; exact hV _)
  have ha : assign p.yc ((List.range p.xc).map fun x => showV (v 0 x 0)) = none := by
    unfold assign
    rw [if_neg (by simpa using hxy), hxc]
    simp [List.range_succ_eq_map]
  have hl : ∃ rest, ((List.range p.tc).flatMap fun t => gridRows showV p.xc p.yc (v t) ++ [[]]).map (fun r => r.flatMap (· ++ sp)) =
      ((List.range p.xc).map fun x => showV (v 0 x 0)).flatMap (· ++ sp) :: rest := by
    unfold gridRows
    rw [htc, hyc, List.range_succ_eq_map, List.range_succ_eq_map, List.flatMap_cons, List.map_cons]
    exact ⟨_, rfl⟩
  obtain ⟨rest, hrest⟩ := hl
  rw [hrest, htc, readSteps, List.drop_succ_cons, List.drop_zero]
  have : readRows p.yc p.xc (((List.range p.xc).map fun x => showV (v 0 x 0)).flatMap (· ++ sp) :: rest) = none := by
    conv_lhs => rw [hxc]
    rw [readRows, lineWords_words]
    rw [hxc] at hw ha
    rw [hw, ha]
    rfl
  rw [this]
  rfl
end heat

/-! ### Examples -/

/-- a 2 x 2 grid with 2 time steps and the values 0, …, 7 is read back -/
example : ∃ t, Heat.dataText showNat (str "1", str "2", str "3") (⟨2, 2, 2, 1, 1, 1, fun _ _ _ => 0, fun _ _ _ => 0, fun _ _ _ => 0, fun _ _ => 0⟩ : Heat.Problem ℚ) [0, 1, 2, 3, 4, 5, 6, 7] = .ok t ∧
    TimeData.read t = some ([[[str "0", str "1"], [str "2", str "3"]], [[str "4", str "5"], [str "6", str "7"]]], [(str "0", str "1"), (str "0", str "2"), (str "0", str "3")]) :=
  ⟨_, rfl, by decide +kernel⟩

/-- hypotheses of `C105_reader_partial` -/
example (u : Fin (Heat.Problem.d (⟨2, 2, 2, 1, 1, 1, fun _ _ _ => 0, fun _ _ _ => 0, fun _ _ _ => 0, fun _ _ => 0⟩ : Heat.Problem ℚ)) → Nat) :=
  C105_reader_partial (T := ℚ) (showV := showNat) word_showNat (ends := (str "1", str "2", str "3")) ⟨by decide, by decide⟩ ⟨by decide, by decide⟩ ⟨by decide, by decide⟩
    (p := ⟨2, 2, 2, 1, 1, 1, fun _ _ _ => 0, fun _ _ _ => 0, fun _ _ _ => 0, fun _ _ => 0⟩) rfl u 0 (by decide)

/-- three points in x direction and two in y direction: the reader fails -/
example (u : Fin (Heat.Problem.d (⟨2, 3, 2, 1, 1, 1, fun _ _ _ => 0, fun _ _ _ => 0, fun _ _ _ => 0, fun _ _ => 0⟩ : Heat.Problem ℚ)) → Nat) :=
  C105_reader_fails (T := ℚ) (showV := showNat) word_showNat (ends := (str "1", str "2", str "3")) ⟨by decide, by decide⟩ ⟨by decide, by decide⟩ ⟨by decide, by decide⟩
    (p := ⟨2, 3, 2, 1, 1, 1, fun _ _ _ => 0, fun _ _ _ => 0, fun _ _ _ => 0, fun _ _ => 0⟩) (by decide) (by decide) u (by decide)

/-- the hypothesis of `C105_poisson` holds for the problem `exP` (4 x 3 points) if the iteration limit is large enough -/
example : ∃ maxIter t, Fdm.run (M := Dense ℚ) (fun _ => ['7']) Fdm.exP (6 / 5) maxIter (1 / 10000) = .ok t ∧ table t = List.replicate 3 (List.replicate 4 ['7']) := by
  obtain ⟨C, -, h⟩ := Fdm.C71_fdm_solve (M := Dense ℚ) 4 3 (by norm_num) (by norm_num) (h := (1 / 3 : ℚ)) (k := 1 / 2) (by norm_num) (by norm_num) (w := 6 / 5) (by norm_num) (by norm_num)
  obtain ⟨N, hN⟩ := h (fun _ _ => 1) (fun x y => x + y) (1 / 10000) (by norm_num)
  obtain ⟨x, it, h1, -⟩ := hN (N + 1) (by omega)
  obtain ⟨t, h2, h3⟩ := C105_poisson (M := Dense ℚ) (showT := fun _ => ['7']) (fun _ => ⟨by decide, by decide⟩) (p := Fdm.exP) h1
  exact ⟨N + 1, t, h2, h3⟩
end NS.Props.GridFile
