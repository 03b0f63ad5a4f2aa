/-
Property theorems C58 and C59: reading Triangle's .node and .ele files.
-/
import Verif.LoaderModel
import Verif.Props.Mesh

set_option linter.unusedSectionVars false
set_option linter.unusedSimpArgs false

namespace NS.Props.Loader
open NS NS.World NS.Loader
variable {T : Type} [Field T] [LinearOrder T]

/-! ### Specification of a line -/

/-- white space, or the start of a comment, ends a token -/
def Ends (rest : List Char) : Prop := rest = [] ∨ ∃ c r, rest = c :: r ∧ (isSpace c = true ∨ c = '#')

/-- a token: characters other than white space and `#` -/
def Token (t : List Char) : Prop := t ≠ [] ∧ ∀ c ∈ t, isSpace c = false ∧ c ≠ '#'

/-- `line` consists of the tokens `ts`, separated by white space, and then `rest` -/
inductive Starts : List Char → List (List Char) → List Char → Prop
  | nil {rest} : Starts rest [] rest
  | cons {ws t mid ts rest} : (∀ c ∈ ws, isSpace c = true) → Token t → Ends mid → Starts mid ts rest → Starts (ws ++ (t ++ mid)) (t :: ts) rest

/-- nothing but white space and a comment -/
def Blank (l : List Char) : Prop := skipLen l = l.length

/-- the token `t` denotes `v` for the extraction operator `parse`: whatever ends the token, the value is `v`, exactly the
token is consumed, and the stream stays good unless the token ends the input -/
structure Means {α : Type} (parse : List Char → α × Option Nat) (t : List Char) (v : α) : Prop where
  tok : Token t
  atEnd : parse t = (v, none)
  before : ∀ c r, isSpace c = true ∨ c = '#' → parse (t ++ c :: r) = (v, some t.length)

theorem skipLen_ws {ws : List Char} (h : ∀ c ∈ ws, isSpace c = true) (l : List Char) : skipLen (ws ++ l) = ws.length + skipLen l := by
  induction ws with
  | nil => simp
  | cons c ws ih =>
    have hc := h c (by simp)
    rw [List.cons_append, skipLen, if_neg (by rintro rfl; exact absurd hc (by decide)), if_neg (by simp [hc]), ih (fun d hd => h d (by simp [hd]))]
    simp; omega

theorem skipLen_token {t : List Char} (h : Token t) (l : List Char) : skipLen (t ++ l) = 0 := by
  obtain ⟨c, cs, rfl⟩ := List.exists_cons_of_ne_nil h.1
  obtain ⟨h1, h2⟩ := h.2 c (by simp)
  rw [List.cons_append, skipLen, if_neg h2, if_pos h1]

theorem skipLen_le (l : List Char) : skipLen l ≤ l.length := by
  induction l with
  | nil => simp [skipLen]
  | cons c l ih =>
    unfold skipLen
    split
    · simp
    · split
      · simp
      · simp; omega

/-- extraction of a token at position `p` -/
theorem extract_token {α : Type} {parse : List Char → α × Option Nat} {t : List Char} {v : α} (h : Means parse t v) {line pre mid : List Char}
    (hl : line = pre ++ (t ++ mid)) (he : Ends mid) :
    extract parse line pre.length = .ok (v, if mid = [] then (pre.length : Int) - 1 else (pre ++ t).length) := by
  unfold extract
  rw [if_neg (by omega)]
  have hd : line.drop ((pre.length : Int).toNat) = t ++ mid := by rw [hl]; simp
  rw [hd]
  rcases he with rfl | ⟨c, r, rfl, hc⟩
  · simp [h.atEnd]
  · simp [h.before c r hc]

/-- `skipWS` in front of a token -/
theorem skip_token {line pre ws t mid : List Char} (hl : line = pre ++ (ws ++ (t ++ mid))) (hw : ∀ c ∈ ws, isSpace c = true) (ht : Token t) :
    skipWS line pre.length = .ok ((pre ++ ws).length : Int) ∧ ((pre ++ ws).length : Int) ≠ line.length := by
  unfold skipWS
  rw [if_neg (by omega)]
  have hd : line.drop ((pre.length : Int).toNat) = ws ++ (t ++ mid) := by rw [hl]; simp
  rw [hd, skipLen_ws hw, skipLen_token ht]
  have : 0 < t.length := List.length_pos_of_ne_nil ht.1
  refine ⟨by simp, ?_⟩
  rw [hl]
  simp
  omega

theorem field_token {α : Type} {parse : List Char → α × Option Nat} {t : List Char} {v : α} (h : Means parse t v) {line pre ws mid : List Char}
    (hl : line = pre ++ (ws ++ (t ++ mid))) (hw : ∀ c ∈ ws, isSpace c = true) (he : Ends mid) :
    field parse line pre.length = .ok (v, if mid = [] then ((pre ++ ws).length : Int) - 1 else (pre ++ ws ++ t).length) := by
  unfold field
  obtain ⟨h1, h2⟩ := skip_token hl hw h.tok
  rw [h1, ok_bind, throwIf_false _ h2, ok_bind, extract_token h (pre := pre ++ ws) (by rw [hl]; simp) he]

theorem starts_ne_nil {l : List Char} {t ts rest} (h : Starts l (t :: ts) rest) : l ≠ [] := by
  cases h with
  | cons hw ht he hs =>
    intro hh
    simp at hh
    exact ht.1 hh.2.1

theorem ends_of_blank {l : List Char} (h : Blank l) : Ends l := by
  cases l with
  | nil => exact .inl rfl
  | cons c l =>
    refine .inr ⟨c, l, rfl, ?_⟩
    unfold Blank skipLen at h
    split at h
    · next hc => exact .inr hc
    · split at h
      · simp at h
      · next hs => exact .inl (by simpa using hs)

/-! ### C58: reading one line -/

/-- the mesh with a new vertex at `(x, y)` -/
def addPoint (w : World T) (x y : T) : World T :=
  { w with V := w.V ++ [⟨0, w.vertices.length, [x, y], []⟩], vertices := w.vertices ++ [w.V.length] }

theorem addPoint_eq (w : World T) (x y : T) :
    (w.newVertex [x, y]).1.addVertex (some (w.newVertex [x, y]).2) = .ok (addPoint w x y) := by
  unfold World.addVertex World.newVertex
  rw [assert_true (by simp), ok_bind]
  show (getIdx (w.V ++ [_]) w.V.length >>= fun v => _) = _
  rw [getIdx_of_some (a := (⟨0, 0, [x, y], []⟩ : MVertex T)) (by simp), ok_bind]
  simp [addPoint]

theorem wsub_next {st : St T} {i : Nat} (h : i < 2 ^ 64) (hs : st.shift ≤ 1) :
    wsub i (if i = 0 then 0 else st.shift) ≠ st.next ↔ i ≠ st.next + (if i = 0 then 0 else st.shift) := by
  unfold wsub
  split <;> split <;> omega

theorem parseU_lt (s : List Char) : (parseU s).1 < 2 ^ 64 := by
  unfold parseU
  rcases hs : scanInt s with ⟨neg, ds, n, e⟩
  simp only
  split
  · simp
  · split
    · simp
    · simp only
      split
      · exact Nat.mod_lt _ (by positivity)
      · omega

theorem means_lt {t : List Char} {i : Nat} (h : Means parseU t i) : i < 2 ^ 64 := by
  have := parseU_lt t
  rw [h.atEnd] at this
  exact this

theorem indexField_token {line pre t mid : List Char} {i : Nat} (h : Means parseU t i) (hl : line = pre ++ (t ++ mid)) (he : Ends mid) (st : St T)
    (hs : st.shift ≤ 1) :
    indexField line pre.length st = if i = st.next + (if i = 0 then 0 else st.shift)
      then .ok ({ st with shift := if i = 0 then 0 else st.shift, next := st.next + 1 }, if mid = [] then (pre.length : Int) - 1 else (pre ++ t).length)
      else .error (.exc .loadTriangleNodeError) := by
  unfold indexField
  rw [extract_token h hl he, ok_bind]
  simp only
  have := wsub_next (means_lt h) hs
  by_cases hi : i = st.next + (if i = 0 then 0 else st.shift)
  · rw [if_pos hi]
    have hn : ¬ (wsub i (if i = 0 then 0 else st.shift) ≠ st.next) := fun hh => this.1 hh hi
    rw [throwIf_false _ hn, ok_bind]
    rw [not_ne_iff] at hn
    rw [hn]; rfl
  · rw [if_neg hi, throwIf_true _ (this.2 hi)]
    rfl

/-- the position behind a token that is followed by another one -/
theorem ne_nil_mid {mid : List Char} {t ts rest} (h : Starts mid (t :: ts) rest) (a b : Int) : (if mid = [] then a else b) = b :=
  if_neg (starts_ne_nil h)

/-- C58, .node files: every line with (at least) the three tokens index, x, y is read as exactly these three numbers: the line
is rejected if the index is not the expected one, and otherwise a vertex at `(x, y)` is appended. -/
theorem C58_node_line {pT : List Char → T × Option Nat} {line ti tx ty rest : List Char} {i : Nat} {x y : T} (h : Starts line [ti, tx, ty] rest)
    (hi : Means parseU ti i) (hx : Means pT tx x) (hy : Means pT ty y) (st : St T) (hh : st.header = true) (hs : st.shift ≤ 1) :
    nodeLine pT line st = if i = st.next + (if i = 0 then 0 else st.shift)
      then .ok ⟨true, if i = 0 then 0 else st.shift, st.next + 1, addPoint st.w x y⟩
      else .error (.exc .loadTriangleNodeError) := by
  cases h with
  | @cons ws t mid ts rest hw ht he hs1 =>
  have hs1' := hs1
  cases hs1 with
  | @cons ws1 t1 mid1 ts1 rest1 hw1 ht1 he1 hs2 =>
  have hs2' := hs2
  cases hs2 with
  | @cons ws2 t2 mid2 ts2 rest2 hw2 ht2 he2 hs3 =>
  unfold nodeLine
  obtain ⟨k1, k2⟩ := skip_token (pre := []) rfl hw ht
  simp only [List.nil_append, List.length_nil, Nat.cast_zero] at k1 k2
  rw [k1, ok_bind, if_neg k2, if_neg (by simp [hh]), indexField_token hi rfl he st hs, ne_nil_mid hs1']
  by_cases hc : i = st.next + (if i = 0 then 0 else st.shift)
  · rw [if_pos hc, if_pos hc, ok_bind]
    simp only
    rw [field_token hx (pre := ws ++ ti) (ws := ws1) (mid := ws2 ++ (ty ++ mid2)) (by simp) hw1 he1, ok_bind]
    simp only
    rw [ne_nil_mid hs2', field_token hy (pre := ws ++ ti ++ ws1 ++ tx) (ws := ws2) (mid := mid2) (by simp) hw2 he2, ok_bind]
    simp only [addPoint_eq, ok_bind, hh]
    rfl
  · rw [if_neg hc, if_neg hc]
    rfl

/-- C58, .ele files: every line with (at least) the four tokens index, a, b, c is read as exactly these numbers: the line is
rejected if the index is not the expected one, and otherwise an element with the vertices `a`, `b`, `c` is appended. -/
theorem C58_element_line {line ti ta tb tc rest : List Char} {i a b c : Nat} (h : Starts line [ti, ta, tb, tc] rest)
    (hi : Means parseU ti i) (ha : Means parseU ta a) (hb : Means parseU tb b) (hc : Means parseU tc c) (st : St T) (hh : st.header = true)
    (hs : st.shift ≤ 1) :
    elementLine line st = if i = st.next + (if i = 0 then 0 else st.shift)
      then (do
        let shift := if i = 0 then 0 else st.shift
        let v1 ← getIdx st.w.vertices (wsub a shift)
        let v2 ← getIdx st.w.vertices (wsub b shift)
        let v3 ← getIdx st.w.vertices (wsub c shift)
        let w ← (st.w.newElement [some v1, some v2, some v3]).1.addElement (some st.w.E.length)
        return ⟨true, shift, st.next + 1, w⟩)
      else .error (.exc .loadTriangleNodeError) := by
  cases h with
  | @cons ws t mid ts rest hw ht he hs1 =>
  have hs1' := hs1
  cases hs1 with
  | @cons ws1 t1 mid1 ts1 rest1 hw1 ht1 he1 hs2 =>
  have hs2' := hs2
  cases hs2 with
  | @cons ws2 t2 mid2 ts2 rest2 hw2 ht2 he2 hs3 =>
  have hs3' := hs3
  cases hs3 with
  | @cons ws3 t3 mid3 ts3 rest3 hw3 ht3 he3 hs4 =>
  unfold elementLine
  obtain ⟨k1, k2⟩ := skip_token (pre := []) rfl hw ht
  simp only [List.nil_append, List.length_nil, Nat.cast_zero] at k1 k2
  rw [k1, ok_bind, if_neg k2, if_neg (by simp [hh]), indexField_token hi rfl he st hs, ne_nil_mid hs1']
  by_cases hk : i = st.next + (if i = 0 then 0 else st.shift)
  · rw [if_pos hk, if_pos hk, ok_bind]
    simp only
    rw [field_token ha (pre := ws ++ ti) (ws := ws1) (mid := ws2 ++ (tb ++ (ws3 ++ (tc ++ mid3)))) (by simp) hw1 he1, ok_bind]
    simp only
    rw [ne_nil_mid hs2', field_token hb (pre := ws ++ ti ++ ws1 ++ ta) (ws := ws2) (mid := ws3 ++ (tc ++ mid3)) (by simp) hw2 he2, ok_bind]
    simp only
    rw [ne_nil_mid hs3', field_token hc (pre := ws ++ ti ++ ws1 ++ ta ++ ws2 ++ tb) (ws := ws3) (mid := mid3) (by simp) hw3 he3, ok_bind]
    simp only [hh]
    rfl
  · rw [if_neg hk, if_neg hk]
    rfl

/-- C58, header lines: with (at least) two tokens the header is accepted exactly when the first number is not 0 and the second
is `d`. -/
theorem header_tokens {line tn td rest : List Char} {n : Nat} {d d' : Int} (e : Exc) (h : Starts line [tn, td] rest)
    (hn : Means parseU tn n) (hd : Means parseI td d') :
    ∃ p, skipWS line 0 = .ok p ∧ p ≠ line.length ∧
      headerLine e d line p = if n ≠ 0 ∧ d' = d then .ok () else .error (.exc e) := by
  cases h with
  | @cons ws t mid ts rest hw ht he hs1 =>
  have hs1' := hs1
  cases hs1 with
  | @cons ws1 t1 mid1 ts1 rest1 hw1 ht1 he1 hs2 =>
  obtain ⟨k1, k2⟩ := skip_token (pre := []) rfl hw ht
  simp only [List.nil_append, List.length_nil, Nat.cast_zero] at k1 k2
  refine ⟨_, k1, k2, ?_⟩
  unfold headerLine
  rw [extract_token hn rfl he, ok_bind]
  simp only
  by_cases h0 : n = 0
  · rw [throwIf_true _ h0, ne_nil_mid hs1', if_neg (by simp [h0])]; rfl
  · rw [throwIf_false _ h0, ok_bind, ne_nil_mid hs1']
    obtain ⟨l1, l2⟩ := skip_token (pre := ws ++ tn) (ws := ws1) (t := td) (mid := mid1) (line := ws ++ (tn ++ (ws1 ++ (td ++ mid1)))) (by simp) hw1 ht1
    rw [l1, ok_bind, if_neg l2, extract_token hd (pre := ws ++ tn ++ ws1) (mid := mid1) (by simp) he1, ok_bind]
    by_cases hdd : d' = d
    · rw [throwIf_false _ (by simp [hdd]), if_pos ⟨h0, hdd⟩]
    · rw [throwIf_true _ hdd, if_neg (by simp [hdd])]

/-- C58, header of a .node file -/
theorem C58_node_header {pT : List Char → T × Option Nat} {line tn td rest : List Char} {n : Nat} {d : Int} (h : Starts line [tn, td] rest)
    (hn : Means parseU tn n) (hd : Means parseI td d) (st : St T) (hh : st.header = false) :
    nodeLine pT line st = if n ≠ 0 ∧ d = 2 then .ok { st with header := true } else .error (.exc .loadTriangleNodeError) := by
  obtain ⟨p, h1, h2, h3⟩ := header_tokens (d := 2) .loadTriangleNodeError h hn hd
  unfold nodeLine
  rw [h1, ok_bind, if_neg h2, if_pos hh, h3]
  split <;> rfl

/-- C58, header of an .ele file -/
theorem C58_element_header {line tn td rest : List Char} {n : Nat} {d : Int} (h : Starts line [tn, td] rest)
    (hn : Means parseU tn n) (hd : Means parseI td d) (st : St T) (hh : st.header = false) :
    elementLine line st = if n ≠ 0 ∧ d = 3 then .ok { st with header := true } else .error (.exc .loadTriangleElementError) := by
  obtain ⟨p, h1, h2, h3⟩ := header_tokens (d := 3) .loadTriangleElementError h hn hd
  unfold elementLine
  rw [h1, ok_bind, if_neg h2, if_pos hh, h3]
  split <;> rfl

/-! Decimal numbers are such tokens. -/

theorem takeWhile_all {α : Type} {p : α → Bool} {l : List α} (h : ∀ c ∈ l, p c = true) (r : List α) (hr : ∀ c ∈ r.head?, p c = false) :
    (l ++ r).takeWhile p = l := by
  induction l with
  | nil =>
    cases r with
    | nil => rfl
    | cons c r => rw [List.nil_append, List.takeWhile_cons, hr c (by simp)]; rfl
  | cons a l ih => rw [List.cons_append, List.takeWhile_cons, h a (by simp), if_pos rfl, ih (fun c hc => h c (by simp [hc]))]

theorem digit_facts {c : Char} (h : isDigit c = true) : isSpace c = false ∧ c ≠ '#' ∧ c ≠ '-' ∧ c ≠ '+' := by
  refine ⟨?_, ?_, ?_, ?_⟩
  · by_contra hh
    rw [Bool.not_eq_false] at hh
    simp only [isSpace, Bool.or_eq_true, decide_eq_true_eq] at hh
    rcases hh with ((((rfl | rfl) | rfl) | rfl) | rfl) | rfl <;> revert h <;> decide
  all_goals rintro rfl; revert h; decide

theorem end_facts {c : Char} (h : isSpace c = true ∨ c = '#') : isDigit c = false := by
  by_contra hh
  rw [Bool.not_eq_false] at hh
  obtain ⟨h1, h2, -⟩ := digit_facts hh
  rcases h with h | h
  · rw [h1] at h; cases h
  · exact h2 h

theorem sign_digit {c : Char} {r : List Char} (h : isDigit c = true) : sign (c :: r) = (false, 0) := by
  obtain ⟨-, -, h3, h4⟩ := digit_facts h
  unfold sign
  split
  · next heq => injection heq with h1 _; exact absurd h1 h3
  · next heq => injection heq with h1 _; exact absurd h1 h4
  · rfl

theorem scanInt_digits {ds r : List Char} (h0 : ds ≠ []) (h : ∀ c ∈ ds, isDigit c = true) (hr : ∀ c ∈ r.head?, isDigit c = false) :
    scanInt (ds ++ r) = (false, ds, ds.length, decide (r = [])) := by
  obtain ⟨c, cs, rfl⟩ := List.exists_cons_of_ne_nil h0
  have hc := h c (by simp)
  have e1 : ((c :: cs) ++ r).takeWhile isSpace = [] := by
    rw [List.cons_append, List.takeWhile_cons, (digit_facts hc).1]; rfl
  unfold scanInt
  simp only [e1, List.length_nil, List.drop_zero]
  rw [List.cons_append, sign_digit hc]
  simp only [List.drop_zero]
  rw [← List.cons_append, takeWhile_all h r hr]
  simp

theorem token_digits {ds : List Char} (h0 : ds ≠ []) (h : ∀ c ∈ ds, isDigit c = true) : Token ds :=
  ⟨h0, fun c hc => ⟨(digit_facts (h c hc)).1, (digit_facts (h c hc)).2.1⟩⟩

/-- every decimal number below 2^64 is read as its value -/
theorem means_digits {ds : List Char} (h0 : ds ≠ []) (h : ∀ c ∈ ds, isDigit c = true) (hb : digitsVal ds < 2 ^ 64) :
    Means parseU ds (digitsVal ds) := by
  refine ⟨token_digits h0 h, ?_, fun c r hc => ?_⟩
  · have := scanInt_digits (r := []) h0 h (by simp)
    rw [List.append_nil] at this
    unfold parseU
    rw [this]
    simp only
    rw [if_neg h0, if_neg (by omega)]
    simp
  · have := scanInt_digits (r := c :: r) h0 h (by simpa using end_facts hc)
    unfold parseU
    rw [this]
    simp only
    rw [if_neg h0, if_neg (by omega)]
    simp

/-- every decimal number below 2^31 is read as its value -/
theorem means_digits_int {ds : List Char} (h0 : ds ≠ []) (h : ∀ c ∈ ds, isDigit c = true) (hb : digitsVal ds < 2 ^ 31) :
    Means parseI ds (digitsVal ds) := by
  refine ⟨token_digits h0 h, ?_, fun c r hc => ?_⟩
  · have := scanInt_digits (r := []) h0 h (by simp)
    rw [List.append_nil] at this
    unfold parseI
    rw [this]
    simp only
    rw [if_neg h0, if_neg (by simp), if_neg (by simp; omega)]
    simp
  · have := scanInt_digits (r := c :: r) h0 h (by simpa using end_facts hc)
    unfold parseI
    rw [this]
    simp only
    rw [if_neg h0, if_neg (by simp), if_neg (by simp; omega)]
    simp

/-- a parser for `T = ℚ` that knows natural numbers only, for the examples -/
def pq (s : List Char) : ℚ × Option Nat := ((parseU s).1, (parseU s).2)

theorem means_pq {t : List Char} {n : Nat} (h : Means parseU t n) : Means pq t n :=
  ⟨h.tok, by simp [pq, h.atEnd], fun c r hc => by simp [pq, h.before c r hc]⟩

/-! ### C58: lines with missing numbers -/

theorem skip_blank {line pre rest : List Char} (hl : line = pre ++ rest) (hb : Blank rest) :
    skipWS line pre.length = .ok (line.length : Int) := by
  unfold skipWS
  rw [if_neg (by omega)]
  have hd : line.drop ((pre.length : Int).toNat) = rest := by rw [hl]; simp
  rw [hd, hb, hl]
  simp

/-- C58 (partial), index only, with white space or a comment behind it: rejected -/
theorem C58_short_one_partial {pT : List Char → T × Option Nat} {line ti rest : List Char} {i : Nat} (h : Starts line [ti] rest)
    (hi : Means parseU ti i) (hr : rest ≠ []) (hb : Blank rest) (st : St T) (hh : st.header = true) (hs : st.shift ≤ 1) :
    nodeLine pT line st = .error (.exc .loadTriangleNodeError) := by
  cases h with
  | @cons ws t mid ts rest hw ht he hs1 =>
  cases hs1
  unfold nodeLine
  obtain ⟨k1, k2⟩ := skip_token (pre := []) rfl hw ht
  simp only [List.nil_append, List.length_nil, Nat.cast_zero] at k1 k2
  rw [k1, ok_bind, if_neg k2, if_neg (by simp [hh]), indexField_token hi rfl he st hs, if_neg (c := rest = []) hr]
  by_cases hc : i = st.next + (if i = 0 then 0 else st.shift)
  · rw [if_pos hc, ok_bind]
    simp only
    unfold field
    rw [skip_blank (rest := rest) (by simp) hb, ok_bind, throwIf_true _ rfl]
    rfl
  · rw [if_neg hc]; rfl

/-- C58 (partial), index and one coordinate, with white space or a comment behind them: rejected -/
theorem C58_short_two_partial {pT : List Char → T × Option Nat} {line ti tx rest : List Char} {i : Nat} {x : T} (h : Starts line [ti, tx] rest)
    (hi : Means parseU ti i) (hx : Means pT tx x) (hr : rest ≠ []) (hb : Blank rest) (st : St T) (hh : st.header = true) (hs : st.shift ≤ 1) :
    nodeLine pT line st = .error (.exc .loadTriangleNodeError) := by
  cases h with
  | @cons ws t mid ts rest hw ht he hs1 =>
  have hs1' := hs1
  cases hs1 with
  | @cons ws1 t1 mid1 ts1 rest1 hw1 ht1 he1 hs2 =>
  cases hs2
  unfold nodeLine
  obtain ⟨k1, k2⟩ := skip_token (pre := []) rfl hw ht
  simp only [List.nil_append, List.length_nil, Nat.cast_zero] at k1 k2
  rw [k1, ok_bind, if_neg k2, if_neg (by simp [hh]), indexField_token hi rfl he st hs, ne_nil_mid hs1']
  by_cases hc : i = st.next + (if i = 0 then 0 else st.shift)
  · rw [if_pos hc, ok_bind]
    simp only
    rw [field_token hx (pre := ws ++ ti) (ws := ws1) (mid := rest) (by simp) hw1 he1, ok_bind, if_neg hr]
    unfold field
    rw [skip_blank (rest := rest) (by simp) hb, ok_bind, throwIf_true _ rfl]
    rfl
  · rw [if_neg hc]; rfl

/-- Negation of the second clause of C58: index and one coordinate that ends the line: the coordinate is read twice, for every
coordinate and index. -/
theorem C58_short_negation {pT : List Char → T × Option Nat} {ws ti ws1 tx : List Char} {i : Nat} {x : T} (hw : ∀ c ∈ ws, isSpace c = true)
    (h0 : ws1 ≠ []) (hw1 : ∀ c ∈ ws1, isSpace c = true) (hi : Means parseU ti i) (hx : Means pT tx x) (st : St T) (hh : st.header = true)
    (hs : st.shift ≤ 1) (hk : i = st.next + (if i = 0 then 0 else st.shift)) :
    nodeLine pT (ws ++ ti ++ ws1 ++ tx) st = .ok ⟨true, if i = 0 then 0 else st.shift, st.next + 1, addPoint st.w x x⟩ := by
  unfold nodeLine
  obtain ⟨ws', c, rfl⟩ := List.eq_nil_or_concat ws1 |>.resolve_left h0
  have hline : ws ++ ti ++ (ws'.concat c) ++ tx = ws ++ (ti ++ (ws' ++ (c :: tx))) := by simp
  rw [hline]
  obtain ⟨k1, k2⟩ := skip_token (pre := []) (mid := ws' ++ (c :: tx)) rfl hw hi.tok
  simp only [List.nil_append, List.length_nil, Nat.cast_zero] at k1 k2
  have hc : isSpace c = true := hw1 c (by simp)
  have hw' : ∀ c ∈ ws', isSpace c = true := fun d hd => hw1 d (by simp [hd])
  have he : Ends (ws' ++ c :: tx) := by
    cases ws' with
    | nil => exact .inr ⟨c, tx, rfl, .inl hc⟩
    | cons d ws' => exact .inr ⟨d, _, rfl, .inl (hw' d (by simp))⟩
  rw [k1, ok_bind, if_neg k2, if_neg (by simp [hh]), indexField_token hi rfl he st hs, if_pos hk, if_neg (c := ws' ++ c :: tx = []) (by simp), ok_bind]
  simp only
  rw [field_token hx (pre := ws ++ ti) (ws := ws' ++ [c]) (mid := []) (by simp) (by simpa using hw1) (.inl rfl), ok_bind]
  simp only
  have e : (((ws ++ ti ++ (ws' ++ [c])).length : Int) - 1) = ((ws ++ ti ++ ws').length : Int) := by
    simp; omega
  rw [if_pos trivial, e, field_token hx (pre := ws ++ ti ++ ws') (ws := [c]) (mid := []) (by simp) (by simpa using hc) (.inl rfl), ok_bind]
  simp only [addPoint_eq, ok_bind, hh]
  rfl

/-! ### C58: reading outside of the line -/

theorem extract_not_ub {α : Type} (parse : List Char → α × Option Nat) (line : List Char) {p : Int} (h : 0 ≤ p) :
    ∃ v q, extract parse line p = .ok (v, q) ∧ ((parse (line.drop p.toNat)).2 = none → q = p - 1) ∧
      ∀ n, (parse (line.drop p.toNat)).2 = some n → q = p + n := by
  unfold extract
  rw [if_neg (by omega)]
  refine ⟨_, _, rfl, fun hh => by rw [hh], fun n hn => by rw [hn]⟩

theorem skipWS_nonneg (line : List Char) {p : Int} (h : 0 ≤ p) : ∃ q : Int, skipWS line p = .ok q ∧ p ≤ q ∧ q = p + skipLen (line.drop p.toNat) := by
  unfold skipWS
  rw [if_neg (by omega)]
  exact ⟨_, rfl, by omega, rfl⟩

/-- in a line that begins with white space, `skipWS` never stops at its first character -/
theorem skip_pos {line : List Char} (h : 0 < skipLen line) {p q : Int} (hp : 0 ≤ p) (e : skipWS line p = .ok q) : 1 ≤ q := by
  obtain ⟨q', e', -, h3⟩ := skipWS_nonneg line hp
  rw [e] at e'
  injection e' with e'
  subst e'
  rcases eq_or_ne p 0 with rfl | h0
  · rw [h3]; simp; omega
  · omega

theorem field_not_ub {α : Type} (parse : List Char → α × Option Nat) {line : List Char} {p : Int} (hp : 0 ≤ p) :
    Sat (field parse line p) (fun r => ∃ q, p ≤ q ∧ skipWS line p = .ok q ∧ (r.2 = q - 1 ∧ (parse (line.drop q.toNat)).2 = none ∨ ∃ n : Nat, r.2 = q + n ∧ (parse (line.drop q.toNat)).2 = some n))
      (fun er => er = .exc .loadTriangleNodeError) := by
  unfold field
  obtain ⟨q, h1, h2, -⟩ := skipWS_nonneg line hp
  rw [h1, ok_bind]
  by_cases hq : q = line.length
  · rw [throwIf_true _ hq]; rfl
  · rw [throwIf_false _ hq, ok_bind]
    obtain ⟨v, r, h3, h4, h5⟩ := extract_not_ub parse line (p := q) (by omega)
    rw [h3]
    refine ⟨q, h2, rfl, ?_⟩
    rcases hn : (parse (line.drop q.toNat)).2 with _ | n
    · exact .inl ⟨h4 hn, rfl⟩
    · exact .inr ⟨n, h5 n hn, rfl⟩

/-- the stream is still good only after at least one character -/
theorem parseU_pos {s : List Char} {n : Nat} (h : (parseU s).2 = some n) : 0 < n := by
  have hlen : (scanInt s).2.1.length ≤ (scanInt s).2.2.1 := by
    unfold scanInt
    simp only
    omega
  unfold parseU at h
  rcases hs : scanInt s with ⟨neg, ds, m, e⟩
  rw [hs] at h hlen
  simp only at h hlen
  split at h
  · cases h
  · next h0 =>
    split at h
    · cases h
    · simp only at h
      split at h
      · cases h
      · injection h with h
        have := List.length_pos_of_ne_nil h0
        omega

/-- the code reads outside of the line only if this holds -/
def Escapes (line : List Char) : Prop := skipLen line = 0 ∧ (parseU line).2 = none

theorem addPoint_not_ub (w : World T) (x y : T) : Sat ((w.newVertex [x, y]).1.addVertex (some (w.newVertex [x, y]).2)) (fun w' => w' = addPoint w x y) noErr := by
  rw [addPoint_eq]; rfl

/-- after the index, the iterator is inside of the line unless the line escapes -/
theorem indexField_not_ub {line : List Char} {st : St T} {p : Int} (hp : 0 ≤ p) (h0 : p = skipLen line) (hx : ¬ Escapes line) :
    Sat (indexField line p st) (fun r => (0 < skipLen line ∧ 0 ≤ r.2) ∨ (skipLen line = 0 ∧ (parseU line).2 ≠ none ∧ 1 ≤ r.2))
      (fun er => er = .exc .loadTriangleNodeError) := by
  unfold indexField
  obtain ⟨v, q, h1, h2, h3⟩ := extract_not_ub parseU line hp
  rw [h1, ok_bind]
  refine Sat.bind (P := fun _ => True) ((sat_throwIf fun _ => rfl).mono (fun _ _ => trivial) fun _ h => h.symm) fun _ _ => ?_
  show _ ∨ _
  rcases Nat.eq_zero_or_pos (skipLen line) with hz | hz
  · have hp0 : p = 0 := by omega
    subst hp0
    right
    have hn : (parseU line).2 ≠ none := fun hh => hx ⟨hz, hh⟩
    refine ⟨hz, hn, ?_⟩
    obtain ⟨n, hn⟩ := Option.ne_none_iff_exists'.1 hn
    have := h3 n (by simpa using hn)
    have := parseU_pos hn
    show 1 ≤ q
    omega
  · left
    refine ⟨hz, ?_⟩
    show 0 ≤ q
    rcases hh : (parseU (line.drop p.toNat)).2 with _ | n
    · rw [h2 hh]; omega
    · rw [h3 n hh]; omega

theorem headerLine_not_ub (e : Exc) (d : Int) {line : List Char} {p : Int} (hp : 0 ≤ p) (h0 : p = skipLen line) (hx : ¬ Escapes line) :
    Sat (headerLine e d line p) (fun _ => True) (fun er => er = .exc e) := by
  unfold headerLine
  obtain ⟨v, q, h1, h2, h3⟩ := extract_not_ub parseU line hp
  rw [h1, ok_bind]
  refine Sat.bind (P := fun _ => True) ((sat_throwIf fun _ => rfl).mono (fun _ _ => trivial) fun _ h => h.symm) fun _ _ => ?_
  have hq : 0 ≤ q := by
    rcases hh : (parseU (line.drop p.toNat)).2 with _ | n
    · rw [h2 hh]
      have : p ≠ 0 := by rintro rfl; exact hx ⟨by omega, by simpa using hh⟩
      omega
    · rw [h3 n hh]; omega
  obtain ⟨r, k1, k2, -⟩ := skipWS_nonneg line hq
  show Sat (skipWS line q >>= _) _ _
  rw [k1, ok_bind]
  split
  · rfl
  · obtain ⟨v, q, h1, -, -⟩ := extract_not_ub parseI line (p := r) (by omega)
    rw [h1, ok_bind]
    exact (sat_throwIf fun _ => rfl).mono (fun _ _ => trivial) fun _ h => h.symm

/-- C58 (partial), third clause, .node files: for every line that does not begin with a number that ends it (or that cannot be
read) nothing outside of the line is read: the line is read, or the exception is thrown. -/
theorem C58_node_bounds_partial (pT : List Char → T × Option Nat) {line : List Char} (hx : ¬ Escapes line) (st : St T) :
    Sat (nodeLine pT line st) (fun _ => True) (fun er => er = .exc .loadTriangleNodeError) := by
  unfold nodeLine
  obtain ⟨p, h1, h2, h3⟩ := skipWS_nonneg line (p := 0) le_rfl
  have h3 : p = skipLen line := by simpa using h3
  rw [h1, ok_bind]
  split
  · trivial
  split
  · exact Sat.bind (headerLine_not_ub _ 2 h2 h3 hx) fun _ _ => trivial
  refine Sat.bind (indexField_not_ub h2 h3 hx) fun s hs => ?_
  have hs2 : 0 ≤ s.2 := by rcases hs with h | h <;> omega
  refine Sat.bind (field_not_ub pT hs2) fun e1 he1 => ?_
  have he1' : 0 ≤ e1.2 := by
    obtain ⟨q, hq, hsk, h⟩ := he1
    have : 1 ≤ q := by
      rcases hs with ⟨h, -⟩ | h
      · exact skip_pos h hs2 hsk
      · omega
    rcases h with ⟨h, -⟩ | ⟨n, h, -⟩ <;> omega
  refine Sat.bind (field_not_ub pT he1') fun e2 he2 => ?_
  simp only [addPoint_eq, ok_bind]
  trivial

/-- the numbers of an element line, as read by the code -/
def elementNumbers (line : List Char) (p : Int) (st : St T) : R (Nat × Nat × Nat) := do
  let s ← indexField line p st
  let i1 ← field parseU line s.2
  let i2 ← field parseU line i1.2
  let i3 ← field parseU line i2.2
  return (i1.1, i2.1, i3.1)

/-- C58 (partial), third clause, .ele files: the same for the numbers of an element line -/
theorem C58_element_bounds_partial {line : List Char} (hx : ¬ Escapes line) (st : St T) :
    Sat (elementNumbers line (skipLen line) st) (fun _ => True) (fun er => er = .exc .loadTriangleNodeError) := by
  unfold elementNumbers
  refine Sat.bind (indexField_not_ub (by omega) rfl hx) fun s hs => ?_
  have hs2 : 0 ≤ s.2 := by rcases hs with h | h <;> omega
  refine Sat.bind (field_not_ub parseU hs2) fun e1 he1 => ?_
  have he1' : 0 ≤ e1.2 := by
    obtain ⟨q, hq, hsk, h⟩ := he1
    have : 1 ≤ q := by
      rcases hs with ⟨h, -⟩ | h
      · exact skip_pos h hs2 hsk
      · omega
    rcases h with ⟨h, -⟩ | ⟨n, h, -⟩ <;> omega
  refine Sat.bind (field_not_ub parseU he1') fun e2 he2 => ?_
  have he2' : 0 ≤ e2.2 := by
    obtain ⟨q, hq, hsk, h⟩ := he2
    rcases hs with ⟨hw, -⟩ | ⟨hz, hn, -⟩
    · have := skip_pos hw he1' hsk
      rcases h with ⟨h, -⟩ | ⟨n, h, -⟩ <;> omega
    · rcases h with ⟨h, hh⟩ | ⟨n, h, -⟩
      · rcases eq_or_ne q 0 with rfl | h0
        · exact absurd (by simpa using hh) hn
        · omega
      · omega
  exact Sat.bind (field_not_ub parseU he2') fun _ _ => trivial

/-- Negation of the third clause of C58: "1" in the first column, with nothing behind it, reads in front of the line, both as
the header and as a node. -/
theorem C58_bounds_negation (w : World ℚ) :
    nodeLine pq "1".toList ⟨false, 1, 0, w⟩ = .error .ub ∧ nodeLine pq "1".toList ⟨true, 1, 0, w⟩ = .error .ub ∧
    elementLine "1".toList ⟨true, 1, 0, w⟩ = .error .ub := by
  refine ⟨?_, ?_, ?_⟩ <;> rfl

/-! the hypotheses above are satisfiable, and the token theorems apply to concrete lines -/
theorem m1 : Means parseU ['1'] 1 := means_digits (by decide) (by decide) (by decide)
theorem m0 : Means parseU ['0'] 0 := means_digits (by decide) (by decide) (by decide)
theorem m2 : Means parseU ['2'] 2 := means_digits (by decide) (by decide) (by decide)
theorem m3 : Means parseU ['3'] 3 := means_digits (by decide) (by decide) (by decide)
theorem m15 : Means parseU ['1', '5'] 15 := means_digits (by decide) (by decide) (by decide)
theorem i2 : Means parseI ['2'] 2 := means_digits_int (by decide) (by decide) (by decide)
theorem i3 : Means parseI ['3'] 3 := means_digits_int (by decide) (by decide) (by decide)

theorem ends_space (r : List Char) : Ends (' ' :: r) := .inr ⟨' ', r, rfl, .inl (by decide)⟩

theorem line_1_15_2 : Starts " 1 15  2 # c".toList [['1'], ['1', '5'], ['2']] " # c".toList :=
  .cons (ws := [' ']) (by decide) m1.tok (ends_space _) (.cons (ws := [' ']) (by decide) m15.tok (ends_space _)
    (.cons (ws := [' ', ' ']) (by decide) m2.tok (ends_space _) .nil))

example : nodeLine pq " 1 15  2 # c".toList ⟨true, 1, 0, World.empty⟩ = .ok ⟨true, 1, 1, addPoint World.empty 15 2⟩ := by
  have := C58_node_line (T := ℚ) line_1_15_2 m1 (means_pq m15) (means_pq m2) ⟨true, 1, 0, World.empty⟩ rfl (by decide)
  simpa using this

example : nodeLine pq "1 15".toList ⟨true, 1, 0, World.empty⟩ = .ok ⟨true, 1, 1, addPoint World.empty 15 15⟩ := by
  have := C58_short_negation (T := ℚ) (ws := []) (ws1 := [' ']) (by simp) (by simp) (by decide) m1 (means_pq m15) ⟨true, 1, 0, World.empty⟩ rfl
    (by decide) rfl
  simpa using this

example : nodeLine pq "1 15 #".toList ⟨true, 1, 0, World.empty⟩ = .error (.exc .loadTriangleNodeError) :=
  C58_short_two_partial (T := ℚ) (ti := ['1']) (tx := ['1', '5']) (rest := [' ', '#'])
    (.cons (ws := []) (by simp) m1.tok (ends_space _) (.cons (ws := [' ']) (by decide) m15.tok (ends_space _) .nil)) m1 (means_pq m15) (by simp)
    (by unfold Blank; decide) _ rfl (by decide)

example : ¬ Escapes "1 15".toList := by
  have : ¬ (parseU "1 15".toList).2 = none := by decide
  exact fun h => this h.2

/-! ### C59: whole files -/

/-- the lines of a file that are not blank -/
def significant (text : List Char) : List (List Char) := (lines text).filter fun l => skipLen l ≠ l.length

/-- the rows of a .node file with these points, where the first row has index `n` -/
inductive NodeRows (pT : List Char → T × Option Nat) : Nat → List (List Char) → List (T × T) → Prop
  | nil {n} : NodeRows pT n [] []
  | cons {n line ti tx ty rest x y ls pts} : Starts line [ti, tx, ty] rest → Means parseU ti n → Means pT tx x → Means pT ty y →
      NodeRows pT (n + 1) ls pts → NodeRows pT n (line :: ls) ((x, y) :: pts)

/-- the rows of an .ele file with these triangles, where the first row has index `n` and vertices are counted from `b` -/
inductive EleRows (b : Nat) : Nat → List (List Char) → List (Nat × Nat × Nat) → Prop
  | nil {n} : EleRows b n [] []
  | cons {n line ti ta tb tc rest p q r ls tris} : Starts line [ti, ta, tb, tc] rest → Means parseU ti n → Means parseU ta (p + b) →
      Means parseU tb (q + b) → Means parseU tc (r + b) → EleRows b (n + 1) ls tris → EleRows b n (line :: ls) ((p, q, r) :: tris)

/-- a .node file with indices from `b`: a header (any positive number, the dimension 2) and one row for every point -/
def NodeFile (pT : List Char → T × Option Nat) (b : Nat) (text : List Char) (pts : List (T × T)) : Prop :=
  ∃ hd tn td rest ls n, significant text = hd :: ls ∧ Starts hd [tn, td] rest ∧ Means parseU tn n ∧ n ≠ 0 ∧ Means parseI td 2 ∧ NodeRows pT b ls pts

/-- an .ele file with indices from `b`: a header (any positive number, 3 vertices per element) and one row for every triangle -/
def EleFile (b : Nat) (text : List Char) (tris : List (Nat × Nat × Nat)) : Prop :=
  ∃ hd tn td rest ls n, significant text = hd :: ls ∧ Starts hd [tn, td] rest ∧ Means parseU tn n ∧ n ≠ 0 ∧ Means parseI td 3 ∧ EleRows b b ls tris

/-- the mesh built with the mesh functions from points and triangles -/
def mesh (pts : List (T × T)) (tris : List (Nat × Nat × Nat)) : R (World T) := do
  let w ← forList pts World.empty fun p w =>
    let r := w.newVertex [p.1, p.2]
    r.1.addVertex (some r.2)
  forList tris w fun t w =>
    let r := w.newElement [some t.1, some t.2.1, some t.2.2]
    r.1.addElement (some r.2)

theorem blank_skip {line : List Char} (h : Blank line) : skipWS line 0 = .ok (line.length : Int) :=
  skip_blank (pre := []) rfl h

theorem forList_filter {α σ : Type} {f : α → σ → R σ} (p : α → Bool) (h : ∀ a s, p a = false → f a s = .ok s) (l : List α) (s : σ) :
    forList l s f = forList (l.filter p) s f := by
  induction l generalizing s with
  | nil => rfl
  | cons a l ih =>
    rw [List.filter_cons]
    rcases hp : p a with _ | _
    · rw [forList, h a s hp, ok_bind, if_neg (by simp), ih]
    · rw [if_pos rfl, forList, forList]
      rcases f a s with er | s'
      · rfl
      · exact ih s'

theorem node_significant (pT : List Char → T × Option Nat) (text : List Char) (st : St T) :
    forList (lines text) st (nodeLine pT) = forList (significant text) st (nodeLine pT) := by
  refine forList_filter _ (fun line st h => ?_) _ _
  have : Blank line := by simpa [Blank] using h
  unfold nodeLine
  rw [blank_skip this, ok_bind, if_pos rfl]; rfl

theorem ele_significant (text : List Char) (st : St T) :
    forList (lines text) st elementLine = forList (significant text) st elementLine := by
  refine forList_filter _ (fun line st h => ?_) _ _
  have : Blank line := by simpa [Blank] using h
  unfold elementLine
  rw [blank_skip this, ok_bind, if_pos rfl]; rfl

/-- appending a point -/
def addV (p : T × T) (w : World T) : R (World T) :=
  let r := w.newVertex [p.1, p.2]
  r.1.addVertex (some r.2)

theorem addV_eq (p : T × T) (w : World T) : addV p w = .ok (addPoint w p.1 p.2) := addPoint_eq w p.1 p.2

/-- appending a triangle -/
def addE (t : Nat × Nat × Nat) (w : World T) : R (World T) :=
  let r := w.newElement [some t.1, some t.2.1, some t.2.2]
  r.1.addElement (some r.2)

theorem mesh_eq (pts : List (T × T)) (tris : List (Nat × Nat × Nat)) :
    mesh pts tris = forList pts World.empty addV >>= fun w => forList tris w addE := rfl

/-- the state before a row with index `next + b` -/
structure Ready (b : Nat) (st : St T) : Prop where
  header : st.header = true
  hb : b ≤ 1
  shift : st.shift = b ∨ (b = 0 ∧ st.next = 0 ∧ st.shift = 1)

theorem Ready.le {b : Nat} {st : St T} (h : Ready b st) : st.shift ≤ 1 := by
  rcases h.shift with h' | ⟨-, -, h'⟩
  · rw [h']; exact h.hb
  · omega

theorem Ready.shift' {b : Nat} {st : St T} (h : Ready b st) : (if st.next + b = 0 then 0 else st.shift) = b := by
  rcases h.shift with h' | ⟨h1, h2, h'⟩
  · rw [h']; split <;> omega
  · rw [h1, h2]; rfl

theorem node_rows {pT : List Char → T × Option Nat} {n b : Nat} {ls : List (List Char)} {pts : List (T × T)} (h : NodeRows pT n ls pts) {st : St T}
    (hr : Ready b st) (hn : n = st.next + b) :
    ∃ st', forList ls st (nodeLine pT) = .ok st' ∧ forList pts st.w addV = .ok st'.w ∧ Ready b st' ∧ st'.next = st.next + pts.length ∧
      (pts = [] → st' = st) := by
  induction h generalizing st with
  | nil => exact ⟨st, rfl, rfl, hr, rfl, fun _ => rfl⟩
  | @cons n line ti tx ty rest x y ls pts h1 h2 h3 h4 h5 ih =>
    subst hn
    rw [forList, C58_node_line h1 h2 h3 h4 st hr.header hr.le, hr.shift', if_pos rfl, ok_bind]
    obtain ⟨st', e1, e2, e3, e4, -⟩ := ih (st := ⟨true, b, st.next + 1, addPoint st.w x y⟩) ⟨rfl, hr.hb, .inl rfl⟩ (by simp; omega)
    refine ⟨st', e1, ?_, e3, by simp at e4 ⊢; omega, by simp⟩
    rw [forList, addV_eq, ok_bind]
    exact e2

theorem addV_vertices (pts : List (T × T)) (w : World T) (hv : w.vertices = List.range w.V.length) :
    ∃ w', forList pts w addV = .ok w' ∧ w'.V = w.V ++ pts.mapIdx (fun k p => ⟨0, w.V.length + k, [p.1, p.2], []⟩) ∧
      w'.vertices = List.range w'.V.length ∧ w'.E = w.E ∧ w'.F = w.F ∧ w'.elements = w.elements ∧ w'.edges = w.edges := by
  induction pts generalizing w with
  | nil => exact ⟨w, rfl, by simp, hv, rfl, rfl, rfl, rfl⟩
  | cons p pts ih =>
    rw [forList, addV_eq, ok_bind]
    obtain ⟨w', h1, h2, h3, h4, h5, h6, h7⟩ := ih (addPoint w p.1 p.2) (by simp [addPoint, hv, List.range_succ])
    refine ⟨w', h1, ?_, h3, h4, h5, h6, h7⟩
    rw [h2]
    have hl : w.vertices.length = w.V.length := by rw [hv]; simp
    simp [addPoint, hl, List.mapIdx_cons, Nat.add_assoc, Nat.add_comm, Nat.add_left_comm]

theorem addE_spec (t : Nat × Nat × Nat) (w : World T) (h1 : t.1 < w.V.length) (h2 : t.2.1 < w.V.length) (h3 : t.2.2 < w.V.length) :
    Sat (addE t w) (fun w' => w'.vertices = w.vertices ∧ w'.elements = w.elements ++ [w.E.length] ∧ w'.E.length = w.E.length + 1 ∧
      w'.V.length = w.V.length ∧ (∀ k < w.E.length, w'.vertsOf k = w.vertsOf k) ∧ w'.vertsOf w.E.length = [some t.1, some t.2.1, some t.2.2] ∧
      ∀ (q : Nat) (v : MVertex T), w.V[q]? = some v → ∃ v', w'.V[q]? = some v' ∧ v'.pos = v.pos ∧ v'.flags = v.flags ∧ v'.gi = v.gi) noErr := by
  unfold addE
  simp only
  have he : (w.newElement [some t.1, some t.2.1, some t.2.2]).1.E[w.E.length]? =
      some (⟨Simplex.default, [some t.1, some t.2.1, some t.2.2], [none, none, none], []⟩ : MElem T) := by
    simp [World.newElement]
  refine (addElement_spec he rfl (by rfl)).mono ?_ ?_
  · rintro w' ⟨a1, a2, -, -, ⟨vs, a5, -, -⟩, a6, a7⟩
    refine ⟨a1, a2, ?_, a6, ?_, ?_, ?_⟩
    · rw [a5]; simp [World.newElement]
    · intro k hk
      unfold vertsOf
      rw [a5]
      simp only [World.newElement]
      rw [List.getElem?_set_ne (by omega), List.getElem?_append_left hk]
    · unfold vertsOf
      rw [a5]
      simp [World.newElement]
    · intro q v hv
      exact ⟨_, a7 q v (by simpa [World.newElement] using hv), rfl, rfl, rfl⟩
  · rintro er ⟨-, i, hi, hn⟩
    exfalso
    have : i = 0 ∨ i = 1 ∨ i = 2 := by omega
    have key : ∀ q, q < w.V.length → ¬ ((w.newElement [some t.1, some t.2.1, some t.2.2]).1.V[q]? = none) := by
      intro q hq
      simp [World.newElement]
      omega
    rcases this with rfl | rfl | rfl
    · exact key _ h1 (hn _ rfl)
    · exact key _ h2 (hn _ rfl)
    · exact key _ h3 (hn _ rfl)

theorem ele_rows {n b N : Nat} {ls : List (List Char)} {tris : List (Nat × Nat × Nat)} (h : EleRows b n ls tris) {st : St T}
    (hr : Ready b st) (hn : n = st.next + b) (hv : st.w.vertices = List.range st.w.V.length) (hN : st.w.V.length = N)
    (ht : ∀ t ∈ tris, t.1 < N ∧ t.2.1 < N ∧ t.2.2 < N) :
    ∃ st', forList ls st elementLine = .ok st' ∧ forList tris st.w addE = .ok st'.w ∧ Ready b st' ∧ st'.next = st.next + tris.length ∧
      (tris = [] → st' = st) ∧ st'.w.vertices = st.w.vertices ∧ st'.w.V.length = N := by
  induction h generalizing st with
  | nil => exact ⟨st, rfl, rfl, hr, rfl, fun _ => rfl, rfl, hN⟩
  | @cons n line ti ta tb tc rest p q r ls tris h1 h2 h3 h4 h5 h6 ih =>
    subst hn
    obtain ⟨t1, t2, t3⟩ := ht (p, q, r) (by simp)
    simp only at t1 t2 t3
    rw [forList, C58_element_line h1 h2 h3 h4 h5 st hr.header hr.le, hr.shift', if_pos rfl]
    have hg : ∀ k, k < N → getIdx st.w.vertices (wsub (k + b) b) = .ok k := by
      intro k hk
      rw [wsub_of_le (by omega), Nat.add_sub_cancel]
      exact getIdx_of_some (by rw [hv]; simp [hN, hk])
    simp only [hg p t1, hg q t2, hg r t3, ok_bind]
    obtain ⟨w', e1, e2, -, -, e3, -⟩ := (addE_spec (p, q, r) st.w (by rw [hN]; exact t1) (by rw [hN]; exact t2) (by rw [hN]; exact t3)).ok_of
    have e1' : (st.w.newElement [some p, some q, some r]).1.addElement (some st.w.E.length) = .ok w' := e1
    rw [e1']
    obtain ⟨st', f1, f2, f3, f4, -, f6, f7⟩ := ih (st := ⟨true, b, st.next + 1, w'⟩) ⟨rfl, hr.hb, .inl rfl⟩ (by simp; omega) (by simp only [e2, e3]; exact hv)
      (by simp only [e3]; exact hN) (fun t h => ht t (by simp [h]))
    exact ⟨st', f1, by rw [forList, e1]; exact f2, f3, by simp at f4 ⊢; omega, by simp, by rw [f6]; exact e2, f7⟩

theorem hrdy (c : Nat) (hc : c ≤ 1) (w : World T) : Ready c ⟨true, 1, 0, w⟩ := by
  refine ⟨rfl, hc, ?_⟩
  have : c = 0 ∨ c = 1 := by omega
  rcases this with rfl | rfl
  · exact .inr ⟨rfl, rfl, rfl⟩
  · exact .inl rfl

/-- C59: a .node file with indices from `b` and an .ele file with indices from `b'`, each 0 or 1, load the mesh that the mesh
functions build from the points and triangles; it does not depend on `b` and `b'`, on the numbers in the headers, or on
white space and comments. -/
theorem C59_load {pT : List Char → T × Option Nat} {node ele : List Char} {b b' : Nat} {pts : List (T × T)} {tris : List (Nat × Nat × Nat)}
    (hb : b ≤ 1) (hb' : b' ≤ 1) (h1 : NodeFile pT b node pts) (h2 : EleFile b' ele tris)
    (ht : ∀ t ∈ tris, t.1 < pts.length ∧ t.2.1 < pts.length ∧ t.2.2 < pts.length) :
    loadString pT node ele = mesh pts tris >>= World.setupNeighbors := by
  obtain ⟨hd, tn, td, rest, ls, n, s1, s2, s3, s4, s5, s6⟩ := h1
  obtain ⟨hd', tn', td', rest', ls', n', r1, r2, r3, r4, r5, r6⟩ := h2
  unfold loadString setupNode setupElement
  rw [node_significant, s1, forList, C58_node_header s2 s3 s5 _ rfl, if_pos ⟨s4, rfl⟩, ok_bind]
  obtain ⟨st, e1, e2, -⟩ := node_rows s6 (hrdy b hb World.empty) (by simp)
  rw [e1, ok_bind, mesh_eq, e2]
  obtain ⟨w', k1, k2, k3, -⟩ := addV_vertices pts (World.empty : World T) rfl
  have hw : w' = st.w := by
    have e2' : forList pts World.empty addV = .ok st.w := e2
    rw [e2'] at k1
    injection k1 with k1
    exact k1.symm
  subst hw
  have hN : st.w.V.length = pts.length := by rw [k2]; simp [World.empty]
  simp only [pure_eq_ok, ok_bind]
  rw [ele_significant, r1, forList, C58_element_header r2 r3 r5 _ rfl, if_pos ⟨r4, rfl⟩, ok_bind]
  obtain ⟨st2, f1, f2, -⟩ := ele_rows r6 (hrdy b' hb' st.w) (by simp) k3 hN ht
  rw [f1, ok_bind, f2]

/-- C59: that mesh has exactly the points and triangles of the files, in the order of the files. -/
theorem C59_mesh (pts : List (T × T)) (tris : List (Nat × Nat × Nat))
    (ht : ∀ t ∈ tris, t.1 < pts.length ∧ t.2.1 < pts.length ∧ t.2.2 < pts.length) :
    ∃ w, mesh pts tris = .ok w ∧ Built w ∧ w.vertices = List.range pts.length ∧ w.elements = List.range tris.length ∧
      (∀ (k : Nat) (x y : T), pts[k]? = some (x, y) → ∃ v, w.V[k]? = some v ∧ v.pos = [x, y] ∧ v.flags = 0 ∧ v.gi = k) ∧
      ∀ (k : Nat) (p q r : Nat), tris[k]? = some (p, q, r) → w.vertsOf k = [some p, some q, some r] := by
  rw [mesh_eq]
  obtain ⟨w0, k1, k2, k3, k4, -, k6, -⟩ := addV_vertices pts (World.empty : World T) rfl
  have hB0 : Built w0 := by
    have : Sat (forList pts (World.empty : World T) addV) (fun w => Built w) (fun _ => True) := by
      refine sat_forList (fun _ w => Built w) pts Built.empty ?_
      intro pre x suf w hs hw
      rcases hr : addV x w with er | u
      · trivial
      · refine Built.addVertex (.newVertex [x.1, x.2] hw rfl) ?_ hr
        intro hm
        have := (built_inv hw).vlt _ hm
        exact absurd this (by simp [World.newVertex])
    exact this.of_ok k1
  rw [k1, ok_bind]
  have hN : w0.V.length = pts.length := by rw [k2]; simp [World.empty]
  have key : Sat (forList tris w0 addE) (fun w => Built w ∧ w.vertices = w0.vertices ∧ w.elements = List.range tris.length ∧ w.V.length = w0.V.length ∧
      w.E.length = tris.length ∧
      (∀ (q : Nat) (v : MVertex T), w0.V[q]? = some v → ∃ v', w.V[q]? = some v' ∧ v'.pos = v.pos ∧ v'.flags = v.flags ∧ v'.gi = v.gi) ∧
      ∀ (k : Nat) (p q r : Nat), tris[k]? = some (p, q, r) → w.vertsOf k = [some p, some q, some r]) noErr := by
    refine (sat_forList (fun pre w => Built w ∧ w.vertices = w0.vertices ∧ w.elements = List.range pre.length ∧ w.V.length = w0.V.length ∧
      w.E.length = pre.length ∧
      (∀ (q : Nat) (v : MVertex T), w0.V[q]? = some v → ∃ v', w.V[q]? = some v' ∧ v'.pos = v.pos ∧ v'.flags = v.flags ∧ v'.gi = v.gi) ∧
      ∀ (k : Nat) (p q r : Nat), pre[k]? = some (p, q, r) → w.vertsOf k = [some p, some q, some r]) tris ?_ ?_)
    · exact ⟨hB0, rfl, by rw [k6]; rfl, rfl, by rw [k4]; rfl, fun q v h => ⟨v, h, rfl, rfl, rfl⟩, by simp⟩
    · rintro pre t suf w hs ⟨i1, i2, i3, i4, i5, i6, i7⟩
      obtain ⟨t1, t2, t3⟩ := ht t (by rw [hs]; simp)
      obtain ⟨w', e1, e2, e3, e4, e5, e6, e7, e8⟩ := (addE_spec t w (by omega) (by omega) (by omega)).ok_of
      rw [e1]
      refine ⟨?_, by rw [e2, i2], ?_, by omega, by rw [e4, i5]; simp, ?_, ?_⟩
      · refine Built.addElement (.newElement _ i1 rfl) ?_ e1
        intro hm
        have := (built_inv i1).elt _ hm
        exact absurd this (by simp [World.newElement])
      · rw [e3, i3, i5]; simp [List.range_succ]
      · intro q v hv
        obtain ⟨v', j1, j2, j3, j4⟩ := i6 q v hv
        obtain ⟨v'', l1, l2, l3, l4⟩ := e8 q v' j1
        exact ⟨v'', l1, l2.trans j2, l3.trans j3, l4.trans j4⟩
      · intro k p q r hk
        rcases getElem?_append_one _ _ _ _ hk with hk | ⟨rfl, rfl⟩
        · rw [e6 k (by rw [i5]; exact lt_of_getElem? hk)]
          exact i7 k p q r hk
        · rw [← i5]; exact e7
  obtain ⟨w, e, h1, h2, h3, h4, h5, h6, h7⟩ := key.ok_of
  refine ⟨w, e, h1, by rw [h2, k3, hN], h3, ?_, h7⟩
  intro k x y hk
  have : w0.V[k]? = some ⟨0, k, [x, y], []⟩ := by
    rw [k2]
    simp [World.empty, List.getElem?_mapIdx, hk]
  obtain ⟨v, a1, a2, a3, a4⟩ := h6 k _ this
  exact ⟨v, a1, a2, a3, a4⟩

/-! ### C59: rejected files -/

/-- C59: a .node file whose header has the number of vertices 0 or a dimension other than 2 is rejected. -/
theorem C59_node_header {pT : List Char → T × Option Nat} {node ele hd tn td rest : List Char} {ls : List (List Char)} {n : Nat} {d : Int}
    (hs : significant node = hd :: ls) (h : Starts hd [tn, td] rest) (hn : Means parseU tn n) (hd' : Means parseI td d) (hbad : n = 0 ∨ d ≠ 2) :
    loadString pT node ele = .error (.exc .loadTriangleNodeError) := by
  unfold loadString setupNode
  rw [node_significant, hs, forList, C58_node_header h hn hd' _ rfl, if_neg (by rintro ⟨h1, h2⟩; exact hbad.elim h1 fun h => h h2)]
  rfl

/-- C59: an .ele file whose header has the number of elements 0 or a number of vertices other than 3 is rejected. -/
theorem C59_element_header {ele hd tn td rest : List Char} {ls : List (List Char)} {n : Nat} {d : Int}
    (hs : significant ele = hd :: ls) (h : Starts hd [tn, td] rest) (hn : Means parseU tn n) (hd' : Means parseI td d) (hbad : n = 0 ∨ d ≠ 3)
    (w : World T) : setupElement ele w = .error (.exc .loadTriangleElementError) := by
  unfold setupElement
  rw [ele_significant, hs, forList, C58_element_header h hn hd' _ rfl, if_neg (by rintro ⟨h1, h2⟩; exact hbad.elim h1 fun h => h h2)]
  rfl

/-- after `k` rows with indices from `b`, the index `i` is out of sequence -/
def OutOfSequence (b k i : Nat) : Prop := if k = 0 then i ≠ 0 ∧ i ≠ 1 else i ≠ k + b

theorem out_of_sequence {b k i : Nat} {st : St T} (h : OutOfSequence b k i) (hr : Ready b st) (hk : st.next = k) (h0 : k = 0 → st.shift = 1) :
    i ≠ st.next + (if i = 0 then 0 else st.shift) := by
  unfold OutOfSequence at h
  split at h
  · next hz =>
    rw [h0 hz, hk, hz]
    split <;> omega
  · next hz =>
    rcases hr.shift with h' | ⟨-, h', -⟩
    · rw [h', hk]; split <;> omega
    · omega

theorem forList_snoc_error {α σ : Type} {f : α → σ → R σ} {pre suf : List α} {a : α} {s s' : σ} {er : Err} (h1 : forList pre s f = .ok s')
    (h2 : f a s' = .error er) : forList (pre ++ a :: suf) s f = .error er := by
  rw [forList_append, h1, ok_bind, forList, h2]; rfl

/-- C59: a .node file with an index out of sequence is rejected, wherever the row is and whatever follows. -/
theorem C59_node_sequence {pT : List Char → T × Option Nat} {node ele hd tn td rest line ti rest' : List Char} {ts ls more : List (List Char)}
    {n b i : Nat} {pts : List (T × T)} (hs : significant node = hd :: (ls ++ line :: more)) (h : Starts hd [tn, td] rest) (hn : Means parseU tn n) (hn0 : n ≠ 0)
    (hd2 : Means parseI td 2) (hb : b ≤ 1) (hls : NodeRows pT b ls pts) (hl : Starts line (ti :: ts) rest') (hi : Means parseU ti i)
    (hbad : OutOfSequence b pts.length i) :
    loadString pT node ele = .error (.exc .loadTriangleNodeError) := by
  unfold loadString setupNode
  rw [node_significant, hs, forList, C58_node_header h hn hd2 _ rfl, if_pos ⟨hn0, rfl⟩, ok_bind]
  obtain ⟨st, e1, -, e3, e4, e5⟩ := node_rows hls (hrdy b hb World.empty) (by simp)
  have hbad' := out_of_sequence hbad e3 (by simpa using e4) (fun h0 => by rw [e5 (List.length_eq_zero_iff.1 h0)])
  have : nodeLine pT line st = .error (.exc .loadTriangleNodeError) := by
    cases hl with
    | @cons ws t mid ts rest hw ht he hs1 =>
    unfold nodeLine
    obtain ⟨k1, k2⟩ := skip_token (pre := []) rfl hw ht
    simp only [List.nil_append, List.length_nil, Nat.cast_zero] at k1 k2
    rw [k1, ok_bind, if_neg k2, if_neg (by simp [e3.header]), indexField_token hi rfl he st e3.le, if_neg hbad']
    rfl
  rw [forList_snoc_error e1 this]
  rfl

/-- C59: an .ele file with an index out of sequence is rejected (with the exception class for .node files). -/
theorem C59_element_sequence {pT : List Char → T × Option Nat} {node ele hd tn td rest line ti rest' : List Char} {ts ls more : List (List Char)}
    {n b b' i : Nat} {pts : List (T × T)} {tris : List (Nat × Nat × Nat)} (hb : b ≤ 1) (h1 : NodeFile pT b node pts)
    (hs : significant ele = hd :: (ls ++ line :: more)) (h : Starts hd [tn, td] rest) (hn : Means parseU tn n) (hn0 : n ≠ 0)
    (hd3 : Means parseI td 3) (hb' : b' ≤ 1) (hls : EleRows b' b' ls tris) (ht : ∀ t ∈ tris, t.1 < pts.length ∧ t.2.1 < pts.length ∧ t.2.2 < pts.length)
    (hl : Starts line (ti :: ts) rest') (hi : Means parseU ti i) (hbad : OutOfSequence b' tris.length i) :
    loadString pT node ele = .error (.exc .loadTriangleNodeError) := by
  obtain ⟨hd', tn', td', rest'', ls', n', s1, s2, s3, s4, s5, s6⟩ := h1
  unfold loadString setupNode setupElement
  rw [node_significant, s1, forList, C58_node_header s2 s3 s5 _ rfl, if_pos ⟨s4, rfl⟩, ok_bind]
  obtain ⟨st0, e1, e2, -⟩ := node_rows s6 (hrdy b hb World.empty) (by simp)
  rw [e1, ok_bind]
  obtain ⟨w', k1, k2, k3, -⟩ := addV_vertices pts (World.empty : World T) rfl
  have hw : w' = st0.w := by
    have e2' : forList pts World.empty addV = .ok st0.w := e2
    rw [e2'] at k1
    injection k1 with k1
    exact k1.symm
  subst hw
  have hN : st0.w.V.length = pts.length := by rw [k2]; simp [World.empty]
  simp only [pure_eq_ok, ok_bind]
  rw [ele_significant, hs, forList, C58_element_header h hn hd3 _ rfl, if_pos ⟨hn0, rfl⟩, ok_bind]
  obtain ⟨st, f1, -, e3, e4, e5, -⟩ := ele_rows hls (hrdy b' hb' st0.w) (by simp) k3 hN ht
  have hbad' := out_of_sequence hbad e3 (by simpa using e4) (fun h0 => by rw [e5 (List.length_eq_zero_iff.1 h0)])
  have : elementLine line st = .error (.exc .loadTriangleNodeError) := by
    cases hl with
    | @cons ws t mid ts rest hw ht he hs1 =>
    unfold elementLine
    obtain ⟨k1, k2⟩ := skip_token (pre := []) rfl hw ht
    simp only [List.nil_append, List.length_nil, Nat.cast_zero] at k1 k2
    rw [k1, ok_bind, if_neg k2, if_neg (by simp [e3.header]), indexField_token hi rfl he st e3.le, if_neg hbad']
    rfl
  rw [forList_snoc_error f1 this]
  rfl

/-- Negation of the last clause of C59: a triangle with a vertex that does not exist is not rejected; the load has undefined
behaviour, for all files. -/
theorem C59_reference_negation {pT : List Char → T × Option Nat} {node ele hd tn td rest line ti ta tb tc rest' : List Char} {ls more : List (List Char)}
    {n b b' p q r : Nat} {pts : List (T × T)} {tris : List (Nat × Nat × Nat)} (hb : b ≤ 1) (h1 : NodeFile pT b node pts)
    (hs : significant ele = hd :: (ls ++ line :: more)) (h : Starts hd [tn, td] rest) (hn : Means parseU tn n) (hn0 : n ≠ 0)
    (hd3 : Means parseI td 3) (hb' : b' ≤ 1) (hls : EleRows b' b' ls tris) (ht : ∀ t ∈ tris, t.1 < pts.length ∧ t.2.1 < pts.length ∧ t.2.2 < pts.length)
    (hl : Starts line [ti, ta, tb, tc] rest') (hi : Means parseU ti (tris.length + b')) (ha : Means parseU ta (p + b')) (hq : Means parseU tb (q + b'))
    (hr : Means parseU tc (r + b')) (hbad : ¬ (p < pts.length ∧ q < pts.length ∧ r < pts.length)) :
    loadString pT node ele = .error .ub := by
  obtain ⟨hd', tn', td', rest'', ls', n', s1, s2, s3, s4, s5, s6⟩ := h1
  unfold loadString setupNode setupElement
  rw [node_significant, s1, forList, C58_node_header s2 s3 s5 _ rfl, if_pos ⟨s4, rfl⟩, ok_bind]
  obtain ⟨st0, e1, e2, -⟩ := node_rows s6 (hrdy b hb World.empty) (by simp)
  rw [e1, ok_bind]
  obtain ⟨w', k1, k2, k3, -⟩ := addV_vertices pts (World.empty : World T) rfl
  have hw : w' = st0.w := by
    have e2' : forList pts World.empty addV = .ok st0.w := e2
    rw [e2'] at k1
    injection k1 with k1
    exact k1.symm
  subst hw
  have hN : st0.w.V.length = pts.length := by rw [k2]; simp [World.empty]
  simp only [pure_eq_ok, ok_bind]
  rw [ele_significant, hs, forList, C58_element_header h hn hd3 _ rfl, if_pos ⟨hn0, rfl⟩, ok_bind]
  obtain ⟨st, f1, -, e3, e4, e5, e6, -⟩ := ele_rows hls (hrdy b' hb' st0.w) (by simp) k3 hN ht
  have e4' : st.next = tris.length := by simpa using e4
  have : elementLine line st = .error .ub := by
    rw [C58_element_line hl hi ha hq hr st e3.header e3.le, ← e4', e3.shift', if_pos rfl]
    have hv : st.w.vertices = List.range pts.length := by rw [e6]; show st0.w.vertices = _; rw [k3, hN]
    have hg : ∀ k, getIdx st.w.vertices (wsub (k + b') b') = if k < pts.length then .ok k else .error .ub := by
      intro k
      rw [wsub_of_le (by omega), Nat.add_sub_cancel, hv]
      split
      · next hk => exact getIdx_of_some (by simp [hk])
      · next hk => unfold getIdx; rw [List.getElem?_eq_none (by simpa using hk)]
    simp only [hg]
    by_cases c1 : p < pts.length
    · rw [if_pos c1, ok_bind]
      by_cases c2 : q < pts.length
      · rw [if_pos c2, ok_bind, if_neg (fun c3 => hbad ⟨c1, c2, c3⟩)]; rfl
      · rw [if_neg c2]; rfl
    · rw [if_neg c1]; rfl
  rw [forList_snoc_error f1 this]
  rfl

/-! concrete files, with indices from 1 and from 0 -/
def node1 : List Char := "# nodes\n3 2\n1 0 0 \n\n2 1 0 # two\n3 0 1 \n".toList
def node0 : List Char := "3 2\n0 0 0 \n1 1 0 \n2 0 1 \n".toList
def ele1 : List Char := "1 3\n1 1 2 3 \n".toList

theorem ends_hash (r : List Char) : Ends ('#' :: r) := .inr ⟨'#', r, rfl, .inr rfl⟩

theorem node1_file : NodeFile pq 1 node1 [(0, 0), (1, 0), (0, 1)] :=
  ⟨"3 2".toList, ['3'], ['2'], [], ["1 0 0 ".toList, "2 1 0 # two".toList, "3 0 1 ".toList], 3, by decide +kernel,
    .cons (ws := []) (by simp) m3.tok (ends_space _) (.cons (ws := [' ']) (by decide) m2.tok (.inl rfl) .nil), m3, by decide, i2,
    .cons (rest := [' ']) (.cons (ws := []) (by simp) m1.tok (ends_space _) (.cons (ws := [' ']) (by decide) m0.tok (ends_space _) (.cons (ws := [' ']) (by decide) m0.tok (ends_space _) .nil)))
      m1 (by simpa using means_pq m0) (by simpa using means_pq m0)
    (.cons (rest := " # two".toList) (.cons (ws := []) (by simp) m2.tok (ends_space _) (.cons (ws := [' ']) (by decide) m1.tok (ends_space _) (.cons (ws := [' ']) (by decide) m0.tok (ends_space _) .nil)))
      m2 (by simpa using means_pq m1) (by simpa using means_pq m0)
    (.cons (rest := [' ']) (.cons (ws := []) (by simp) m3.tok (ends_space _) (.cons (ws := [' ']) (by decide) m0.tok (ends_space _) (.cons (ws := [' ']) (by decide) m1.tok (ends_space _) .nil)))
      m3 (by simpa using means_pq m0) (by simpa using means_pq m1) .nil))⟩

theorem node0_file : NodeFile pq 0 node0 [(0, 0), (1, 0), (0, 1)] :=
  ⟨"3 2".toList, ['3'], ['2'], [], ["0 0 0 ".toList, "1 1 0 ".toList, "2 0 1 ".toList], 3, by decide +kernel,
    .cons (ws := []) (by simp) m3.tok (ends_space _) (.cons (ws := [' ']) (by decide) m2.tok (.inl rfl) .nil), m3, by decide, i2,
    .cons (rest := [' ']) (.cons (ws := []) (by simp) m0.tok (ends_space _) (.cons (ws := [' ']) (by decide) m0.tok (ends_space _) (.cons (ws := [' ']) (by decide) m0.tok (ends_space _) .nil)))
      m0 (by simpa using means_pq m0) (by simpa using means_pq m0)
    (.cons (rest := [' ']) (.cons (ws := []) (by simp) m1.tok (ends_space _) (.cons (ws := [' ']) (by decide) m1.tok (ends_space _) (.cons (ws := [' ']) (by decide) m0.tok (ends_space _) .nil)))
      m1 (by simpa using means_pq m1) (by simpa using means_pq m0)
    (.cons (rest := [' ']) (.cons (ws := []) (by simp) m2.tok (ends_space _) (.cons (ws := [' ']) (by decide) m0.tok (ends_space _) (.cons (ws := [' ']) (by decide) m1.tok (ends_space _) .nil)))
      m2 (by simpa using means_pq m0) (by simpa using means_pq m1) .nil))⟩

theorem ele1_file : EleFile 1 ele1 [(0, 1, 2)] :=
  ⟨"1 3".toList, ['1'], ['3'], [], ["1 1 2 3 ".toList], 1, by decide +kernel,
    .cons (ws := []) (by simp) m1.tok (ends_space _) (.cons (ws := [' ']) (by decide) m3.tok (.inl rfl) .nil), m1, by decide, i3,
    .cons (rest := [' ']) (.cons (ws := []) (by simp) m1.tok (ends_space _) (.cons (ws := [' ']) (by decide) m1.tok (ends_space _)
      (.cons (ws := [' ']) (by decide) m2.tok (ends_space _) (.cons (ws := [' ']) (by decide) m3.tok (ends_space _) .nil)))) m1 m1 m2 m3 .nil⟩

/-- Non-vacuity of C59: both node files, with the same .ele file, load the same mesh. -/
example : loadString pq node1 ele1 = loadString pq node0 ele1 ∧ (loadString pq node1 ele1).toOption.isSome = true := by
  refine ⟨?_, by decide +kernel⟩
  rw [C59_load (b := 1) (b' := 1) (by decide) (by decide) node1_file ele1_file (by simp), C59_load (b := 0) (b' := 1) (by decide) (by decide) node0_file ele1_file (by simp)]

/-- Non-vacuity of the rejections. -/
example : OutOfSequence 1 1 3 ∧ OutOfSequence 0 0 7 ∧
    (loadString pq "3 2\n1 0 0\n3 1 0\n".toList ele1).toOption.isSome = false ∧
    loadString pq node1 "1 3\n1 1 2 4\n".toList = .error .ub := by
  refine ⟨by simp [OutOfSequence], by simp [OutOfSequence], by decide +kernel, ?_⟩
  exact C59_reference_negation (b := 1) (b' := 1) (p := 0) (q := 1) (r := 3) (by decide) node1_file (hd := "1 3".toList) (ls := []) (line := "1 1 2 4".toList) (more := [])
    (tn := ['1']) (td := ['3']) (rest := []) (by decide +kernel)
    (.cons (ws := []) (by simp) m1.tok (ends_space _) (.cons (ws := [' ']) (by decide) m3.tok (.inl rfl) .nil)) m1 (by decide) i3 (by decide) .nil (by simp)
    (.cons (ws := []) (by simp) m1.tok (ends_space _) (.cons (ws := [' ']) (by decide) m1.tok (ends_space _)
      (.cons (ws := [' ']) (by decide) m2.tok (ends_space _) (.cons (ws := [' ']) (t := ['4']) (by decide) (token_digits (by decide) (by decide)) (.inl rfl) .nil)))) m1 m1 m2
      (means_digits (by decide) (by decide) (by decide)) (by simp)

/-! ### White space and lines -/

/-- C58: white space is space, tab, newline, vertical tab, form feed and carriage return, and nothing else -/
theorem C58_space (c : Char) : isSpace c = true ↔ c.toNat ∈ [32, 9, 10, 11, 12, 13] := by
  have h : ∀ d : Char, c = d ↔ c.toNat = d.toNat := fun d => ⟨fun h => by rw [h], fun h => Char.ext (UInt32.toNat_inj.1 h)⟩
  simp only [isSpace, Bool.or_eq_true, decide_eq_true_eq, h, List.mem_cons, List.not_mem_nil, or_false]
  show ((((c.toNat = 32 ∨ c.toNat = 9) ∨ c.toNat = 10) ∨ c.toNat = 11) ∨ c.toNat = 12) ∨ c.toNat = 13 ↔ _
  tauto

theorem linesAux_line {l : List Char} (h : '\n' ∉ l) (rest cur : List Char) : linesAux (l ++ '\n' :: rest) cur = (cur.reverse ++ l) :: linesAux rest [] := by
  induction l generalizing cur with
  | nil => simp [linesAux]
  | cons c l ih =>
    rw [List.mem_cons, not_or] at h
    rw [List.cons_append, linesAux, if_neg (fun hh => h.1 hh.symm), ih h.2]
    simp

theorem linesAux_last {l : List Char} (h : '\n' ∉ l) (cur : List Char) : linesAux l cur = if cur.reverse ++ l = [] then [] else [cur.reverse ++ l] := by
  induction l generalizing cur with
  | nil => simp [linesAux]
  | cons c l ih =>
    rw [List.mem_cons, not_or] at h
    rw [linesAux, if_neg (fun hh => h.1 hh.symm), ih h.2]
    simp

/-- C58: the lines of a text; the last line needs no newline -/
theorem C58_lines (ls : List (List Char)) (l : List Char) (h : ∀ x ∈ ls, '\n' ∉ x) (hl : '\n' ∉ l) :
    lines (ls.flatMap (· ++ ['\n']) ++ l) = ls ++ if l = [] then [] else [l] := by
  unfold lines
  induction ls with
  | nil => rw [List.flatMap_nil, List.nil_append, linesAux_last hl]; by_cases hn : l = [] <;> simp [hn]
  | cons a ls ih =>
    rw [List.flatMap_cons, List.append_assoc, List.append_assoc]
    show linesAux (a ++ '\n' :: (ls.flatMap (· ++ ['\n']) ++ l)) [] = _
    rw [linesAux_line (h a (by simp)), ih fun x hx => h x (by simp [hx])]
    simp

end NS.Props.Loader
