import Verif.Lemmas.Sources
import Verif.Lemmas.TabStops
import Verif.Props.Finder
import Verif.Props.Format

/-!
# C68: source positions of nodes
-/

namespace Verif.Props.Spans

open Verif.Text Verif.Syntax Verif.Spec Verif.Spans
open Verif.Math (isBlank)
open Verif.Peg (Text)
open Verif.Grammar (expandTabs Entry Parsed parsePlain parseResilient)
open Verif.Props.Format (years)

/-- **C68**: positions are given to exactly the nodes that are read (strict parser). -/
theorem c68_same_nodes (rd : Text → Option Text) (strict : Bool) (s : Text) (f : List Node) :
    parsePlain rd strict s = .file f ↔ ∃ src, plainSource rd strict s = some src ∧ src.nodes = f := by
  have h := (items_plain rd).parse s.length strict s
  unfold plainSource parsePlain
  cases hp : Grammar.parseAll (Grammar.rootItem rd s.length) strict s <;> rw [hp] at h <;>
    cases hs : sourceOf (rootItem rd s.length) strict s <;> rw [hs] at h <;> simp_all

/-- **C68**: positions are given to exactly the entries that are read (resilient parser). -/
theorem c68_same_entries (rd : Text → Option Text) (strict : Bool) (s : Text) (f : List Entry) :
    parseResilient rd strict s = .file f ↔ ∃ src, resilientSource rd strict s = some src ∧ src.nodes = f := by
  have h := (items_resilient rd).parse s.length strict s
  unfold resilientSource parseResilient
  cases hp : Grammar.parseAll (Grammar.resilientItem rd s.length) strict s <;> rw [hp] at h <;>
    cases hs : sourceOf (resilientItem rd s.length) strict s <;> rw [hs] at h <;> simp_all

/-- **C68**: there are only blanks between nodes; nodes do not overlap; every node begins at its location; the nodes
of a block or macro lie in it in the same way; and with `strict` only blanks follow the last node. -/
theorem c68_positions (rd : Text → Option Text) (strict : Bool) (s : Text) (src : Source Node) (h : plainSource rd strict s = some src) :
    ∃ stop, Tiles s 0 src.infos stop ∧ (strict = true → ∀ c ∈ s.drop stop, isBlank c = true) :=
  (items_plain rd).tiles h

/-- **C68** for the resilient parser, including unreadable lines. -/
theorem c68_positions_resilient (rd : Text → Option Text) (strict : Bool) (s : Text) (src : Source Entry)
    (h : resilientSource rd strict s = some src) :
    ∃ stop, Tiles s 0 src.infos stop ∧ (strict = true → ∀ c ∈ s.drop stop, isBlank c = true) :=
  (items_resilient rd).tiles h

/-- **C68**: every node has one position, and the positions are nested as the nodes are. -/
theorem c68_shape (rd : Text → Option Text) (strict : Bool) (s : Text) (src : Source Node) (h : plainSource rd strict s = some src) :
    List.Forall₂ Fits src.nodes src.infos := (items_plain rd).fits h

/-- **C68** for the resilient parser. -/
theorem c68_shape_resilient (rd : Text → Option Text) (strict : Bool) (s : Text) (src : Source Entry)
    (h : resilientSource rd strict s = some src) : List.Forall₂ FitsEntry src.nodes src.infos := (items_resilient rd).fits h

/-- **C68**: the location of a node is where the node is: reading the text from there on yields that node and the
following ones.  Excepted are only `D` codes that were read together with the `G` code before them. -/
theorem c68_read_again (rd : Text → Option Text) (strict : Bool) (s : Text) (src : Source Node) (h : plainSource rd strict s = some src)
    (k : Nat) (i : Info) (hi : src.infos[k]? = some i) (hj : ∀ j n, k = j + 1 → src.nodes[j]? = some n → joined n = false) :
    parsePlain rd strict (s.drop i.location) = .file (src.nodes.drop k) := (items_plain rd).again h k i hi hj

/-- **C68** for the resilient parser. -/
theorem c68_read_again_resilient (rd : Text → Option Text) (strict : Bool) (s : Text) (src : Source Entry)
    (h : resilientSource rd strict s = some src) (k : Nat) (i : Info) (hi : src.infos[k]? = some i)
    (hj : ∀ j n, k = j + 1 → src.nodes[j]? = some n → joinedEntry n = false) :
    parseResilient rd strict (s.drop i.location) = .file (src.nodes.drop k) := (items_resilient rd).again h k i hi hj

/-- **C68**, order: a node ends before the next one begins. -/
theorem c68_apart (rd : Text → Option Text) (strict : Bool) (s : Text) (src : Source Entry)
    (h : resilientSource rd strict s = some src) :
    (src.infos.Pairwise fun i j => i.endLocation ≤ j.location) ∧
    ∀ i ∈ src.infos, i.location < i.endLocation ∧ i.endLocation ≤ s.length := by
  obtain ⟨stop, ht, -⟩ := c68_positions_resilient rd strict s src h
  refine ⟨ht.apart, fun i hi => ?_⟩
  obtain ⟨-, h1, h2, -⟩ := ht.range.2 i hi
  refine ⟨by unfold Info.endLocation; omega, h2.trans ht.stop_le⟩

/-- **C68** (partial: commands without blanks in them). If the text from the location of a node to the location of the
next node is a command without blanks, followed by blanks, then the range of the node contains that command and nothing
but blanks after it.  Missing: commands with blanks in them (`c68_false_blanks`). -/
theorem c68_range_partial (rd : Text → Option Text) (strict : Bool) (s : Text) (src : Source Entry)
    (h : resilientSource rd strict s = some src) (pre post : List Info) (i j : Info) (hi : src.infos = pre ++ i :: j :: post)
    (t w : Text) (e : slice s i.location j.location = t ++ w) (ht : ∀ c ∈ t, isBlank c = false) (hw : ∀ c ∈ w, isBlank c = true) :
    ∃ b, b <+: w ∧ slice s i.location i.endLocation = t ++ b := by
  obtain ⟨stop, hT, -⟩ := c68_positions_resilient rd strict s src h
  rw [hi] at hT
  obtain ⟨h1, h2, h3⟩ := hT.between
  rw [e, inked_append, inked_none hw, inked_all ht] at h1
  have hl : (slice s i.location j.location).length = j.location - i.location := by
    unfold slice; simp only [List.length_take, List.length_drop]; omega
  have hp : slice s i.location i.endLocation <+: t ++ w := by
    rw [← e]
    unfold slice
    apply List.take_prefix_take_left
    unfold Info.endLocation at *; omega
  have hlen : (slice s i.location i.endLocation).length = i.length := by
    unfold slice Info.endLocation at *; simp only [List.length_take, List.length_drop]; omega
  obtain ⟨x, hx⟩ := hp
  have htx : t <+: slice s i.location i.endLocation :=
    List.prefix_of_prefix_length_le ⟨w, rfl⟩ ⟨x, hx⟩ (by omega)
  obtain ⟨b, hb⟩ := htx
  refine ⟨b, ⟨x, ?_⟩, hb.symm⟩
  rw [← hb, List.append_assoc] at hx
  exact List.append_cancel_left hx

/-- **C68 does not hold** for commands with blanks in them: the range ends too early. -/
theorem c68_false_blanks :
    ∃ src, plainSource years true t!"X1 Y1D01*M02*" = some src ∧ src.nodes = [.d01 (some ['1']) (some ['1']) none none true, .m02] ∧
      src.infos.map (fun i => slice t!"X1 Y1D01*M02*" i.location i.endLocation) = [t!"X1 Y1D01", t!"M02*"] :=
  ⟨_, rfl, rfl, rfl⟩

/-- **C68** with **C44**: in a file of at least two nodes read from a text, the node finder follows its rule at every
location: the lines and columns of nodes, computed from the positions, are in order at every level. -/
theorem c68_finder (rd : Text → Option Text) (strict : Bool) (s : Text) (src : Source Node) (h : plainSource rd strict s = some src)
    (ns : List Finder.Node) (hn : StandAt s src.infos ns) (h2 : 2 ≤ ns.length) (line column : Nat) :
    DeepInOrder ns ∧ Finder.Finds line column ns (Verif.Finder.findNode line column ns) := by
  obtain ⟨stop, ht, -⟩ := c68_positions rd strict s src h
  have hd := deep_of_tiles ht hn
  exact ⟨hd, (Finder.c44_deep ns h2 hd line column).1⟩

/-- **C68** with **C44** for the resilient parser, which the language server uses. -/
theorem c68_finder_resilient (rd : Text → Option Text) (strict : Bool) (s : Text) (src : Source Entry)
    (h : resilientSource rd strict s = some src) (ns : List Finder.Node) (hn : StandAt s src.infos ns) (h2 : 2 ≤ ns.length)
    (line column : Nat) : DeepInOrder ns ∧ Finder.Finds line column ns (Verif.Finder.findNode line column ns) := by
  obtain ⟨stop, ht, -⟩ := c68_positions_resilient rd strict s src h
  have hd := deep_of_tiles ht hn
  exact ⟨hd, (Finder.c44_deep ns h2 hd line column).1⟩

/-- **C68**, lines and columns: the line and the column of a position are those of the cursor there, counted from 1. -/
theorem c68_line_column (s : Text) (line character o : Nat) :
    CursorAt s line character o ↔ lineAt s o = line + 1 ∧ columnAt s o = character + 1 ∧ o ≤ s.length :=
  ⟨cursor_line, fun h => cursor_of h.1 h.2.1 h.2.2⟩

/-- **C68**, tabs: the text in which positions are counted is the code with its tabs replaced by spaces. -/
theorem c68_tabs (rd : Text → Option Text) (strict : Bool) (code : Text) :
    ∃ s, Expanded code s ∧ (∀ s', Expanded code s' → s' = s) ∧
      parseText rd strict code = plainSource rd strict s ∧ parseTextResilient rd strict code = resilientSource rd strict s :=
  ⟨expandTabs code, expanded_tabs code, fun _ h => expanded_unique h (expanded_tabs code), rfl, rfl⟩

/-- **C68**, tabs: lines in that text are the lines in the code: what comes before a position in the code becomes what
comes before the corresponding position in the text, with as many line breaks. -/
theorem c68_tabs_lines (code s : Text) (h : Expanded code s) (o : Nat) :
    ∃ p, Expanded (code.take o) (s.take p) ∧ lineAt s p = lineAt code o := by
  obtain rfl := expanded_unique h (expanded_tabs code)
  exact ⟨(expandTabs (code.take o)).length, by rw [take_expand]; exact expanded_tabs _, line_expand code o⟩

/-- **C68 does not hold** for columns in code with tabs: `M02*` stands at column 6 of its line, the position says 9. -/
theorem c68_false_tabs :
    CursorAt t!"G01*\tM02*" 0 5 5 ∧ t!"G01*\tM02*".drop 5 = t!"M02*" ∧
    ∃ src i, parseText years true t!"G01*\tM02*" = some src ∧ src.nodes = [.g .g01 true, .m02] ∧ src.infos[1]? = some i ∧
      lineAt (expandTabs t!"G01*\tM02*") i.location = 1 ∧ columnAt (expandTabs t!"G01*\tM02*") i.location = 9 :=
  ⟨⟨[], t!"G01*\t", t!"M02*", rfl, rfl, by decide, .inl rfl, rfl, rfl⟩, rfl, _, _, rfl, rfl, rfl, rfl, rfl⟩

/-- A file with a comment, a joined command, a macro and a block on several lines. -/
def sample : Text := t!"G04 hi *\nG01X1Y1D01*\n%AMm*\n0 c*\n1,1,2,0,0*%\n%ABD10*%\nD11*\n%AB*%\nM02*\n"

/-- Location, length and number of parts. -/
def brief (i : Info) : Nat × Nat × Nat := (i.location, i.length, i.parts.length)

example : (plainSource years true sample).map (fun src => src.infos.map brief) =
    some [(0, 8, 0), (9, 3, 0), (12, 8, 0), (21, 20, 4), (44, 17, 3), (64, 4, 0)] := by decide +kernel

example : (plainSource years true sample).map (fun src => (src.infos.flatMap Info.parts).map brief) =
    some [(21, 5, 0), (27, 4, 0), (32, 10, 0), (42, 1, 0), (44, 8, 0), (53, 4, 0), (58, 5, 0)] := by decide +kernel

example : ∃ src, resilientSource years true t!"G01*\n?? \nM02*" = some src ∧
    src.infos.map brief = [(0, 4, 0), (5, 3, 0), (9, 4, 0)] ∧ src.nodes = [.node (.g .g01 true), .invalid t!"?? ", .node .m02] :=
  ⟨_, rfl, rfl, rfl⟩

/-- The hypotheses of `c68_range_partial` and `c68_read_again` can be met. -/
example : slice t!"G01*\n?? \nM02*" 0 5 = t!"G01*" ++ ['\n'] ∧ joined (.g .g01 true) = false ∧
    parsePlain years true (t!"G01* M02*".drop 5) = .file [.m02] := ⟨rfl, rfl, rfl⟩

/-- The positions of a text as nodes of the finder. -/
example : ∃ src, plainSource years true t!"G01*\nM02*" = some src ∧
    StandAt t!"G01*\nM02*" src.infos [.mk 0 (some (1, 1)) [], .mk 1 (some (2, 1)) []] :=
  ⟨_, rfl, _, _, rfl, ⟨rfl, rfl⟩, _, _, rfl, ⟨rfl, rfl⟩, rfl⟩

end Verif.Props.Spans
