import Verif.Lemmas.CompletionCodes
import Verif.Lemmas.Leaves4
import Verif.Lemmas.Exact
import Verif.Props.Server
import Verif.Lemmas.Tabs

/-!
# C73: what completion offers
-/

namespace Verif.Props.Completion

open Verif.Text Verif.Syntax Verif.Spec Verif.Completion
open Verif.Peg
open Verif.Spans (Source parseTextResilient)
open Verif.Grammar (Entry parseFile parseCode parseCodeResilient expandTabs)
open Verif.Visitor (Name)
open Verif.Props.Format (years years_stable)

/-! ## What is offered where -/

/-- **C73**: with the cursor anywhere in a line that cannot be read, from its first character that is no blank to its end,
the first character decides: `G` offers the G codes, `D` the apertures, `%` the extended commands, and any other
character nothing.  The cursor is the one in the text with tabs expanded, see `c73_false_tabs`. -/
theorem c73_offer (rd : Text → Option Text) (s : Text) (src : Source Entry) (h : parseTextResilient rd true s = some src)
    (k : Nat) (c : Char) (t : Text) (i : Spans.Info) (hn : src.nodes[k]? = some (.invalid (c :: t))) (hi : src.infos[k]? = some i)
    (line character o : Nat) (hc : CursorAt (expandTabs s) line character o) (hb : i.location ≤ o) (he : o ≤ i.location + (c :: t).length) :
    complete rd s line character =
      if c = 'G' then .ok (some gCodes)
      else if c = 'D' then (track src).map fun v => some (apertureItems v)
      else if c = '%' then (track src).bind fun v => (extended v).map some
      else .ok (some []) := by
  unfold complete kindAt
  rw [h]
  unfold parseTextResilient at h
  simp only [invalidAt_line h hn hi hc hb he]
  by_cases h1 : c = 'G'
  · simp [h1]
  · by_cases h2 : c = 'D'
    · simp [h2]
    · by_cases h3 : c = '%'
      · subst h3
        simp only [if_neg h1, if_neg h2, if_true]
        cases track src <;> rfl
      · simp [h1, h2, h3]

/-- **C73**: with the cursor in a command that can be read, or between it and the next command or line that cannot be
read, nothing is offered. -/
theorem c73_nothing (rd : Text → Option Text) (s : Text) (src : Source Entry) (h : parseTextResilient rd true s = some src)
    (k : Nat) (n : Node) (i : Spans.Info) (hn : src.nodes[k]? = some (.node n)) (hi : src.infos[k]? = some i)
    (line character o : Nat) (hc : CursorAt (expandTabs s) line character o) (hb : i.location ≤ o)
    (he : ∀ j, src.infos[k + 1]? = some j → o < j.location) :
    complete rd s line character = .ok none := by
  unfold complete kindAt
  rw [h]
  unfold parseTextResilient at h
  simp only [invalidAt_node h hn hi hc hb he]

/-! ## Apertures -/

theorem track_eq (src : Source Entry) : track src =
    match (Visitor.run {} (executedIn src.nodes)).exn with
    | none => .ok (Visitor.run {} (executedIn src.nodes)).st
    | some e => .error (.computation (exnName e)) := by
  unfold track executedIn
  rw [readable_eq, State.file_is_run]
  rfl

theorem track_ok {src : Source Entry} {v : Visitor.VState} (h : track src = .ok v) :
    (Visitor.run {} (executedIn src.nodes)).exn = none ∧ v = (Visitor.run {} (executedIn src.nodes)).st := by
  rw [track_eq] at h
  split at h
  · rename_i e
    simp only [Except.ok.injEq] at h
    exact ⟨e, h.symm⟩
  · cases h

/-- **C73**, apertures: when the commands that can be read can be executed, the labels offered are exactly the codes
that they define. -/
theorem c73_apertures (src : Source Entry) (v : Visitor.VState) (h : track src = .ok v) (code : Name) :
    (∃ item ∈ apertureItems v, item.label = code) ↔ DefinedIn src.nodes code := by
  obtain ⟨h1, rfl⟩ := track_ok h
  unfold DefinedIn
  rw [← codes_iff _ h1, List.mem_append]
  unfold apertureItems
  simp only [List.mem_append, List.mem_map]
  constructor
  · rintro ⟨item, (⟨c, hc, rfl⟩ | ⟨c, hc, rfl⟩), rfl⟩
    · exact .inl hc
    · exact .inr hc
  · rintro (hc | hc)
    · exact ⟨_, .inl ⟨code, hc, rfl⟩, rfl⟩
    · exact ⟨_, .inr ⟨code, hc, rfl⟩, rfl⟩

/-- **C73**, extended commands: the code in the definitions that are offered is larger than all codes that the document
defines, and it is the number after one of them. -/
theorem c73_next (rd : Text → Option Text) (hrd : StableDates rd) (s : Text) (src : Source Entry)
    (h : parseTextResilient rd true s = some src) (v : Visitor.VState) (hv : track src = .ok v) (code : Name) (hd : DefinedIn src.nodes code) :
    ∃ n, 10 < n ∧ extended v = .ok (extendedItems n) ∧
      (∀ code', DefinedIn src.nodes code' → ∃ m < n, CodeNumber code' m) ∧
      ∃ code', DefinedIn src.nodes code' ∧ CodeNumber code' (n - 1) := by
  obtain ⟨h1, rfl⟩ := track_ok hv
  have key : ∀ c, c ∈ (Visitor.run {} (executedIn src.nodes)).st.apertures.keys ++ (Visitor.run {} (executedIn src.nodes)).st.blocks.keys ↔
      DefinedIn src.nodes c := fun c => codes_iff _ h1 c
  have hnum : ∀ c, ∃ m, DefinedIn src.nodes c → 10 ≤ m ∧ CodeNumber c m := by
    intro c
    by_cases hc : DefinedIn src.nodes c
    · obtain ⟨m, hm⟩ := defined_number hrd h (Grammar.expandTabs_noTab s) hc
      exact ⟨m, fun _ => hm⟩
    · exact ⟨0, fun h => absurd h hc⟩
  choose num hnum using hnum
  obtain ⟨n, h2, h3, -, c, hc, h4⟩ := State.c08_next_free _ num (fun c hc => (hnum c ((key c).1 hc)).2)
    (List.ne_nil_of_mem ((key code).2 hd))
  have hc' := hnum c ((key c).1 hc)
  refine ⟨n, by omega, ?_, ?_, c, (key c).1 hc, ?_⟩
  · unfold extended
    rw [h2]
  · intro c' hc'
    exact ⟨num c', h3 c' ((key c').2 hc'), (hnum c' hc').2⟩
  · rw [h4, Nat.add_sub_cancel]
    exact hc'.2

/-! ## What is offered can be read -/

theorem written_reads {x : Text} {q : ℚ} (h : Typed x q) : Reads (fun _ => x) q := by
  apply Grammar.reads_of
  intro rest hr
  cases h with
  | whole hi hne =>
    have ha := (all_isDigit_iff x).2 hi
    have h1 := Fmt.pUnsigned_int ha hne hr
    have hs : ∃ c t, x = c :: t ∧ isDigit c = true := by
      cases x with
      | nil => exact absurd rfl hne
      | cons c t => exact ⟨c, t, rfl, by simpa using (List.all_eq_true.1 ha c (by simp))⟩
    have h2 := Fmt.pDouble_signed (neg := False) hs h1
    simpa [Math.floatOf_num] using h2
  | @decimal i f hi hne hf hfe =>
    have ha := (all_isDigit_iff i).2 hi
    have h1 := Fmt.pUnsigned_dec ha ((all_isDigit_iff f).2 hf) hfe (fun x t hx => (hr x t hx).1)
    have hs : ∃ c t, i ++ '.' :: f = c :: t ∧ isDigit c = true := by
      cases i with
      | nil => exact absurd rfl hne
      | cons c t => exact ⟨c, t ++ '.' :: f, rfl, by simpa using (List.all_eq_true.1 ha c (by simp))⟩
    have h2 := Fmt.pDouble_signed (neg := False) hs h1
    simpa [Math.floatOf_dec] using h2

theorem typed_noTab {x : Text} {q : ℚ} (h : Typed x q) : '\t' ∉ x :=
  fun hm => ((written_reads h).2.1 _ hm).2 rfl

theorem id_of_number {n : Nat} (h : 10 ≤ n) : IdOk ('D' :: natStr n) := by
  refine ⟨natStr n, rfl, all_natStr _, ?_⟩
  by_contra hl
  have h1 := natVal_lt (all_lstrip0 (all_natStr n))
  rw [natVal_lstrip0, natVal_natStr] at h1
  have : (10 : ℕ) ^ (lstrip0 (natStr n)).length ≤ 10 ^ 1 := Nat.pow_le_pow_right (by omega) (by omega)
  omega

theorem id_stop' {n : Nat} (h : 10 ≤ n) {c : Char} {r : Text} (hc : isDigit c = false) :
    apertureId ('D' :: (natStr n ++ c :: r)) = .ok ('D' :: natStr n) (c :: r) := Grammar.id_stop (id_of_number h) hc

theorem written_stop {x : Text} {q : ℚ} (h : Typed x q) {c : Char} {r : Text} (hc : isDigit c = false) (hc' : (c == '.') = false) :
    Peg.double (x ++ c :: r) = .ok q (c :: r) := Grammar.double_stop (written_reads h) hc hc'

theorem filled_plain (values : List Text) {w : Text} (h : '$' ∉ w) (r : Text) : filled values false (w ++ r) = w ++ filled values false r := by
  induction w with
  | nil => rfl
  | cons c w ih =>
    simp only [List.mem_cons, not_or] at h
    rw [List.cons_append, filled, ih h.2]
    · rfl
    · rintro k r' rfl
      exact absurd rfl h.1

theorem natStr_plain (n : Nat) : '$' ∉ natStr n := by
  intro h
  have := List.all_eq_true.1 (all_natStr n) _ h
  exact absurd this (by decide)

theorem inserted_ad (values : List Text) (n : Nat) (w : Text) :
    inserted (adItem (t!"ADD" ++ natStr n ++ w)) values = 'A' :: 'D' :: ('D' :: natStr n ++ filled values false w) := by
  unfold inserted adItem
  simp only [if_true, Option.getD_some]
  rw [filled_plain _ (by
    intro h
    rcases List.mem_append.1 h with h | h
    · exact absurd h (by decide)
    · exact natStr_plain n h)]
  rfl

theorem file_of {rd : Text → Option Text} {s : Text} {m : Node} (ht : '\t' ∉ s) (h : ∀ k, Grammar.rootItem rd k s = .ok [m] []) :
    parseCode rd s = .file [m] := by
  rw [Grammar.parseCode_id rd ht]
  have hm : many (Grammar.rootItem rd s.length) [] = .ok [] [] := Grammar.many_fail (Grammar.root_nil rd _)
  simp [parseFile, many1, Peg.andThen, h, hm, Peg.ret, Math.skip]

/-- **C73**, extended commands: every definition of a circle, rectangle or obround that is offered, with numbers typed for
its placeholders and closed with `%`, is read as that definition. -/
theorem c73_accepted_shapes (rd : Text → Option Text) (n : Nat) (hn : 10 ≤ n) (x y z : Text) (a b c : ℚ)
    (hx : Typed x a) (hy : Typed y b) (hz : Typed z c) :
    ((adItems n).take 6).map (fun item => parseCode rd ('%' :: (inserted item [x, y, z] ++ ['%']))) =
      (offeredShapes ('D' :: natStr n) a b c).map (fun m => .file [m]) := by
  have hid := fun c r h => id_stop' hn (c := c) (r := r) h
  have dx := fun c r h h' => written_stop hx (c := c) (r := r) h h'
  have dy := fun c r h h' => written_stop hy (c := c) (r := r) h h'
  have dz := fun c r h h' => written_stop hz (c := c) (r := r) h h'
  have f1 : filled [x, y, z] false t!"C,${1:diameter}*" = 'C' :: ',' :: (x ++ ['*']) := rfl
  have f2 : filled [x, y, z] false t!"C,${1:diameter}X${2:hole_diameter}*" = 'C' :: ',' :: (x ++ 'X' :: (y ++ ['*'])) := rfl
  have f3 : ∀ q, q ≠ '$' → filled [x, y, z] false (q :: t!",${1:width}X${2:height}*") = q :: ',' :: (x ++ 'X' :: (y ++ ['*'])) := by
    intro q hq
    exact filled_plain _ (w := [q, ',']) (by simp [Ne.symm hq]) t!"${1:width}X${2:height}*"
  have f4 : ∀ q, q ≠ '$' → filled [x, y, z] false (q :: t!",${1:width}X${2:height}X${3:hole_diameter}*") =
      q :: ',' :: (x ++ 'X' :: (y ++ 'X' :: (z ++ ['*']))) := by
    intro q hq
    exact filled_plain _ (w := [q, ',']) (by simp [Ne.symm hq]) t!"${1:width}X${2:height}X${3:hole_diameter}*"
  simp only [adItems, List.take, List.map_cons, List.map_nil, inserted_ad, offeredShapes, List.cons.injEq, and_true]
  simp only [f1, f2, f3 _ (show 'R' ≠ '$' by decide), f4 _ (show 'R' ≠ '$' by decide), f3 _ (show 'O' ≠ '$' by decide), f4 _ (show 'O' ≠ '$' by decide),
    List.cons_append, List.append_assoc, List.nil_append]
  have t0 := Grammar.natStr_noTab n
  have t1 := typed_noTab hx
  have t2 := typed_noTab hy
  have t3 := typed_noTab hz
  refine ⟨?_, ?_, ?_, ?_, ?_, ?_⟩ <;> refine file_of (by simp [t0, t1, t2, t3]) fun k => Grammar.root_ad ?_
  all_goals pg [Grammar.addAperture, Grammar.adc, Grammar.adr, Grammar.ado, Grammar.xDouble, Grammar.extended, hid, dx, dy, dz]

/-- **C73**, extended commands: the same for polygons, with a whole number of vertices. -/
theorem c73_accepted_polygons (rd : Text → Option Text) (n : Nat) (hn : 10 ≤ n) (x y z w : Text) (a c d : ℚ)
    (hx : Typed x a) (hy : Digits y) (hy' : y ≠ []) (hz : Typed z c) (hw : Typed w d) :
    ((adItems n).drop 6).map (fun item => parseCode rd ('%' :: (inserted item [x, y, z, w] ++ ['%']))) =
      (offeredPolygons ('D' :: natStr n) a (numeral y) c d).map (fun m => .file [m]) := by
  have hid := fun c r h => id_stop' hn (c := c) (r := r) h
  have dx := fun c r h h' => written_stop hx (c := c) (r := r) h h'
  have dy := fun c r h h' => written_stop (.whole hy hy') (c := c) (r := r) h h'
  have dz := fun c r h h' => written_stop hz (c := c) (r := r) h h'
  have dw := fun c r h h' => written_stop hw (c := c) (r := r) h h'
  have f1 : filled [x, y, z, w] false t!"P,${1:outer_diameter}X${2:vertices}X${3:rotation}*" =
    'P' :: ',' :: (x ++ 'X' :: (y ++ 'X' :: (z ++ ['*']))) := rfl
  have f2 : filled [x, y, z, w] false t!"P,${1:outer_diameter}X${2:vertices}X${3:rotation}X${4:hole_diameter}*" =
    'P' :: ',' :: (x ++ 'X' :: (y ++ 'X' :: (z ++ 'X' :: (w ++ ['*'])))) := rfl
  simp only [adItems, List.drop, List.map_cons, List.map_nil, inserted_ad, offeredPolygons, List.cons.injEq, and_true]
  simp only [f1, f2, List.cons_append, List.append_assoc, List.nil_append]
  have t0 := Grammar.natStr_noTab n
  have t1 := typed_noTab hx
  have t2 := typed_noTab (.whole hy hy')
  have t3 := typed_noTab hz
  have t4 := typed_noTab hw
  refine ⟨?_, ?_⟩ <;> refine file_of (by simp [t0, t1, t2, t3, t4]) fun k => Grammar.root_ad ?_
  all_goals pg [Grammar.addAperture, Grammar.adc, Grammar.adr, Grammar.ado, Grammar.adp, Grammar.xDouble, Grammar.extended, hid, dx, dy, dz, dw]

theorem digit_char {a : Char} (h : isDigit a = true) (r : Text) : digit (a :: r) = .ok (digitVal a) r := by
  have hb := (Math.isDigit_facts h).1
  simp [digit, Math.skip_of_head hb, h]

/-- **C73**, extended commands: the other commands that are offered, with the values that are proposed in them and closed
with `%`, are read as they should be: the format, the unit and the two polarities. -/
theorem c73_accepted_settings (rd : Text → Option Text) (n : Nat) (a b : Char) (ha : isDigit a = true) (hb : isDigit b = true) :
    ∃ fs mo dark clear, extendedItems n = adItems n ++ [fs, mo, dark, clear] ∧
      parseCode rd ('%' :: (inserted fs [[a], [b]] ++ ['%'])) = .file [
        .fs .skipLeading .absolute (digitVal a) (digitVal b) (digitVal a) (digitVal b)] ∧
      parseCode rd ('%' :: (inserted mo [t!"MM"] ++ ['%'])) = .file [.mo .metric] ∧
      parseCode rd ('%' :: (inserted mo [t!"IN"] ++ ['%'])) = .file [.mo .imperial] ∧
      parseCode rd ('%' :: (inserted dark [t!"D"] ++ ['%'])) = .file [.lp .dark] ∧
      parseCode rd ('%' :: (inserted clear [t!"C"] ++ ['%'])) = .file [.lp .clear] := by
  refine ⟨_, _, _, _, rfl, ?_, rfl, rfl, rfl, rfl⟩
  have da := fun r => digit_char ha r
  have db := fun r => digit_char hb r
  have ta : '\t' ≠ a := by rintro rfl; exact absurd ha (by decide)
  have tb : '\t' ≠ b := by rintro rfl; exact absurd hb (by decide)
  show parseCode rd ('%' :: 'F' :: 'S' :: 'L' :: 'A' :: 'X' :: a :: b :: 'Y' :: a :: b :: '*' :: ['%']) = _
  refine file_of (by simp [ta, tb]) fun k => Grammar.root_prop (by decide) (by decide) ?_
  pg [Grammar.properties, Grammar.fs, zerosValue, notationValue, Grammar.oneOf_cons, oneOfIn, Grammar.ofOneOf,
    Grammar.convert, member, da, db]

/-- **C73** (partial: G codes that are offered with `*`).  With a comment without tabs typed for the placeholder of `G04`, every item
that ends with `*` is read as the command it names. -/
theorem c73_g_codes_partial (rd : Text → Option Text) (comment : Text) (h : comment ≠ [])
    (hc : ∀ c ∈ comment, c ≠ '%' ∧ c ≠ '*' ∧ c ≠ '\t') :
    (gCodes.take 6).map (fun item => parseCode rd (inserted item [comment])) =
      [.file [.g .g01 true], .file [.g .g02 true], .file [.g .g03 true], .file [.g04 (some comment)],
        .file [.g .g36 true], .file [.g .g37 true]] := by
  have h1 : parseCode rd (t!"G04" ++ comment ++ ['*']) = .file [.g04 (some comment)] :=
    file_of (by simpa using fun h => (hc _ h).2.2 rfl) fun k => Grammar.root_g (Grammar.g04_ok (s := some comment) (fun a ha => by
      cases ha; exact ⟨h, fun c h => ⟨(hc c h).1, (hc c h).2.1⟩, fun h => (hc _ h).2.2 rfl⟩))
  exact congrArg (fun m => [Grammar.Outcome.file [.g .g01 true], .file [.g .g02 true], .file [.g .g03 true], m,
    .file [.g .g36 true], .file [.g .g37 true]]) h1

/-- **C73 does not hold** for the other G codes that are offered: they lack `*`, and the line remains unreadable. -/
theorem c73_false_g_codes (rd : Text → Option Text) :
    (gCodes.drop 6).map (fun item => parseCodeResilient rd true (inserted item [])) =
      (gCodes.drop 6).map (fun item => .file [.invalid item.label]) := rfl

/-- **C73 does not hold** for extended commands as they are inserted: without `%` behind it the line remains unreadable. -/
theorem c73_false_unclosed :
    parseCodeResilient years true ('%' :: inserted (adItem t!"ADD11C,${1:diameter}*") [t!"0.5"]) = .file [.invalid t!"%ADD11C,0.5*"] := rfl

/-! ## Requests -/

/-- **C73**, requests: when a request for completion in an open Gerber file is answered and no notification about the file
came in between, the answer is that for the text of the file at the time of the request, whatever happened before. -/
theorem c73_reply (rd : Text → Option Text) {Hash Hover : Type} [DecidableEq Hash] (sha256 : Text → Hash)
    (hover : Text × Source Entry → Nat × Nat → Except Server.Exn (Option Hover)) (disk : Server.Uri → Except Server.Exn Text)
    (before after : List (Server.Event (language rd sha256 hover disk))) (uri : Server.Uri) (line character : Nat)
    (hu : Server.supported uri = true) (s : Text) (hs : Server.textAfter uri before none = some s)
    (hc : Server.ChangesOpen (before ++ .receive (.complete uri (line, character)) :: after))
    (hquiet : ∀ n, Server.Event.receive n ∈ after → n.isRequest = false → n.uri ≠ uri)
    (r : Except Server.Exn (Server.Reply (language rd sha256 hover disk)))
    (hr : (Server.serve (before ++ .receive (.complete uri (line, character)) :: after ++ [.run])).replies =
      (Server.serve (before ++ .receive (.complete uri (line, character)) :: after)).replies ++ [((Server.messages before).length, r)]) :
    r = (complete rd s line character).map fun c => Server.Reply.completion (L := language rd sha256 hover disk) c := by
  rw [Server.c48_settled _ before after (.complete uri (line, character)) rfl hc hquiet r hr]
  show Server.answer (Server.textAfter uri before none) _ = _
  rw [hs]
  simp only [Server.answer, hu, if_true, Option.map_some, language, complete]
  cases h : parseTextResilient rd true s with
  | none => rfl
  | some src =>
    simp only
    cases hk : kindAt (expandTabs s) src line character with
    | none => rfl
    | some kind =>
      cases kind with
      | gCode => rfl
      | aperture =>
        simp only
        cases track src <;> rfl
      | extended =>
        simp only
        cases track src with
        | error => rfl
        | ok v =>
          show (extended v >>= fun c => Except.ok (Server.Reply.completion (L := language rd sha256 hover disk) (some c))) =
            ((extended v).map some).map fun c => Server.Reply.completion (L := language rd sha256 hover disk) c
          cases extended v <;> rfl
      | unknown => rfl

/-! ## What goes wrong -/

/-- **C73 does not hold** for the first definition of a document: when no code is defined yet, the request for extended
commands fails. -/
theorem c73_false_first (src : Source Entry) (v : Visitor.VState) (hv : track src = .ok v) (h : ∀ code, ¬ DefinedIn src.nodes code) :
    extended v = .error (.computation t!"ValueError") := by
  obtain ⟨h1, rfl⟩ := track_ok hv
  unfold extended
  rw [State.c08_empty_fails]
  rw [List.eq_nil_iff_forall_not_mem]
  intro c hc
  exact h c ((codes_iff _ h1 c).1 hc)

/-- An example of that. -/
example : complete years t!"%MOMM*%\n%" 1 1 = .error (.computation t!"ValueError") := by decide +kernel

/-- **C73 does not hold** when a command elsewhere cannot be executed: no apertures are offered, the request fails. -/
theorem c73_false_elsewhere :
    complete years t!"%ADD10C,1*%\nD11*\nD1" 2 2 = .error (.computation t!"ApertureNotFoundError") ∧
    complete years t!"%ADD10C,1*%\nD10*\nD1" 2 2 = .ok (some [{ label := t!"D10" }]) := by decide +kernel

/-- **C73 does not hold** below an unreadable line: commands are offered on a blank line too. -/
theorem c73_false_below : complete years t!"G01*\nGx\n\nM02*" 2 0 = .ok (some gCodes) := by decide +kernel

/-- **C73 does not hold** for codes that are defined twice in different ways: they are offered twice. -/
theorem c73_false_twice : complete years t!"%ADD10C,1*%\n%ABD10*%\nG01*\n%AB*%\nD1" 4 2 =
    .ok (some [{ label := t!"D10" }, { label := t!"D10" }]) := by decide +kernel

/-- **C73 does not hold** behind a tab: positions are those in the text with tabs expanded to eight columns.  The first
cursor stands behind the unreadable `G0`, where nothing is offered; without the tab it would be. -/
theorem c73_false_tabs :
    CursorAt t!"G01*\tG0" 0 7 7 ∧ complete years t!"G01*\tG0" 0 7 = .ok none ∧
    CursorAt t!"G01* G0" 0 7 7 ∧ complete years t!"G01* G0" 0 7 = .ok (some gCodes) :=
  ⟨⟨[], t!"G01*\tG0", [], rfl, rfl, by decide, .inl rfl, rfl, rfl⟩, by decide +kernel,
    ⟨[], t!"G01* G0", [], rfl, rfl, by decide, .inl rfl, rfl, rfl⟩, by decide +kernel⟩

/-! ## Examples -/

/-- A document with two definitions and an unreadable line. -/
def sample : Text := t!"%FSLAX26Y26*%\n%ADD10C,0.1*%\n%ADD012C,0.2*%\n  D1\nM02*\n"

example : CursorAt sample 3 4 47 :=
  ⟨t!"%FSLAX26Y26*%\n%ADD10C,0.1*%\n%ADD012C,0.2*%\n", t!"  D1", t!"\nM02*\n", rfl, rfl, by decide,
    .inr ⟨t!"%FSLAX26Y26*%\n%ADD10C,0.1*%\n%ADD012C,0.2*%", rfl⟩, rfl, rfl⟩

/-- The source of that document has the unreadable line at 45, within which that cursor stands. -/
example : (parseTextResilient years true sample).map (fun src => ((src.nodes[3]?).bind fun | .invalid t => some t | .node _ => none,
    src.infos[3]?.map (·.location))) = some (some t!"D1", some 45) := by decide +kernel

/-- The cursor in the second command. -/
example : CursorAt sample 1 3 17 :=
  ⟨t!"%FSLAX26Y26*%\n", t!"%AD", t!"D10C,0.1*%\n%ADD012C,0.2*%\n  D1\nM02*\n", rfl, rfl, by decide,
    .inr ⟨t!"%FSLAX26Y26*%", rfl⟩, rfl, rfl⟩
example : (parseTextResilient years true sample).map (fun src => ((src.nodes[1]?).bind fun | .node (.adc code _ _) => some code | _ => none,
    src.infos[1]?.map (·.location), src.infos[2]?.map (·.location))) = some (some t!"D10", some 14, some 28) := by decide +kernel

/-- The commands of that document define these codes. -/
example : DefinedIn [.node (.adc t!"D10" 1 none), .invalid t!"D1"] t!"D10" := ⟨_, .head _, by simp [stores, View.leaf]⟩
example : (parseTextResilient years true sample).map (fun src => (track src).bind extended) = some (.ok (extendedItems 13)) := by decide +kernel
example : complete years sample 3 4 = .ok (some [{ label := t!"D10" }, { label := t!"D012" }]) := by decide +kernel
example : complete years sample 1 3 = .ok none := by decide +kernel

end Verif.Props.Completion
