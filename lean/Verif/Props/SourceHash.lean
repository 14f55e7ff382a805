import Verif.Props.Spans
import Verif.Spec.SourceHash

/-!
# C69: the check of the MD5 attribute
-/

namespace Verif.Props.SourceHash

open Verif.Text Verif.Syntax Verif.Spec Verif.Spans Verif.SourceHash
open Verif.Peg (Text)
open Verif.Grammar (expandTabs expandFrom_id expandFrom_noTab)
open Verif.Props.Format (years)

theorem filter_breaks (t : Text) :
    (t.filter (fun c => c != '\n')).filter (fun c => c != '\r') = t.filter fun c => decide (¬ lineBreak c) := by
  rw [List.filter_filter]
  congr 1
  funext c
  by_cases h1 : c = '\n' <;> by_cases h2 : c = '\r' <;> simp [lineBreak, h1, h2]

/-- What the check compares. -/
theorem check_iff (digest : Text → Text) (source : Text) (location : Nat) (md5 : Text) :
    checkSourceHash digest source location md5 = true ↔
      digest ((textBefore source location).filter fun c => decide (¬ lineBreak c)) = md5 := by
  unfold checkSourceHash
  rw [filter_breaks, beq_iff_eq]

/-- **C69** (partial: texts without tabs, a line break directly before the command). The check of an MD5 attribute succeeds
exactly if the value is the digest of everything that precedes the command, without line breaks. -/
theorem c69_check_partial (digest : Text → Text) (rd : Text → Option Text) (strict : Bool) (code : Text) (src : Source Node)
    (h : parseText rd strict code = some src) (ht : '\t' ∉ code) (k : Nat) (i : Info) (hi : src.infos[k]? = some i) (md5 : Text)
    (_hn : src.nodes[k]? = some (.tfMd5 md5)) (c : Char) (hc : lineBreak c) (l : Nat) (hl : i.location = l + 1) (hb : code[l]? = some c) :
    checkSourceHash digest (expandTabs code) i.location md5 = true ↔ digest (signed code i.location) = md5 := by
  rw [check_iff, expandTabs, expandFrom_id 0 code ht, hl]
  have : signed code (l + 1) = (code.take l).filter fun c => decide (¬ lineBreak c) := by
    unfold signed
    rw [List.take_add_one, hb, List.filter_append]
    simp [hc]
  rw [this]; rfl

/-- **C69**, what follows the command does not matter: the outcome depends on the text before it alone. -/
theorem c69_prefix (digest : Text → Text) (a b : Text) (location : Nat) (md5 : Text) (h : a.take location = b.take location)
    (h0 : 0 < location) : checkSourceHash digest a location md5 = checkSourceHash digest b location md5 := by
  obtain ⟨l, rfl⟩ : ∃ l, location = l + 1 := ⟨location - 1, by omega⟩
  have : a.take l = b.take l := by
    have := congrArg (List.take l) h
    simpa [List.take_take] using this
  simp only [checkSourceHash, textBefore, this]

/-- **C69**, line ends do not matter: two files whose MD5 commands stand at the beginning of a line, with the same characters before them but other line
breaks, have the same outcome. -/
theorem c69_line_ends (digest : Text → Text) (a b : Text) (k l : Nat) (c d : Char) (md5 : Text) (hc : lineBreak c) (hd : lineBreak d)
    (ha : a[k]? = some c) (hb : b[l]? = some d) (h : signed a (k + 1) = signed b (l + 1)) :
    checkSourceHash digest a (k + 1) md5 = checkSourceHash digest b (l + 1) md5 := by
  have key : ∀ (a : Text) (k : Nat) (c : Char), lineBreak c → a[k]? = some c →
      signed a (k + 1) = (a.take k).filter fun c => decide (¬ lineBreak c) := by
    intro a k c hc ha
    unfold signed
    rw [List.take_add_one, ha, List.filter_append]
    simp [hc]
  rw [key a k c hc ha, key b l d hd hb] at h
  rw [Bool.eq_iff_iff, check_iff, check_iff]
  unfold textBefore
  simp only [h]

/-- A file that signs itself. -/
def sample (value : Text) : Text := t!"G01*\r\nM00*\n%TF.MD5," ++ value ++ t!"*%\nM02*\n"

/-- A value of 32 characters. -/
def value : Text := List.replicate 32 'a'

example : ∃ src i, parseText years true (sample value) = some src ∧ src.nodes = [.g .g01 true, .m00, .tfMd5 value, .m02] ∧
    src.infos[2]? = some i ∧ i.location = 11 ∧ (sample value)[10]? = some '\n' ∧ signed (sample value) 11 = t!"G01*M00*" :=
  ⟨_, _, rfl, rfl, rfl, rfl, rfl, by decide +kernel⟩

/-- **C69 does not hold** if the command follows another one on the same line: the last character before the command is
not counted, so the right value is refused, unless the digest does not see the difference. -/
theorem c69_false_same_line (digest : Text → Text) (h : digest t!"G01*" = value) (h' : digest t!"G01" ≠ value) :
    let code := t!"G01*%TF.MD5," ++ value ++ t!"*%M02*"
    (∃ src i, parseText years true code = some src ∧ src.nodes = [.g .g01 true, .tfMd5 value, .m02] ∧ src.infos[1]? = some i ∧ i.location = 4) ∧
    digest (signed code 4) = value ∧ checkSourceHash digest (expandTabs code) 4 value = false := by
  refine ⟨⟨_, _, rfl, rfl, rfl, rfl⟩, ?_, ?_⟩
  · rw [show signed _ 4 = t!"G01*" from by decide +kernel, h]
  · rw [Bool.eq_false_iff, ne_eq, check_iff, show List.filter _ (textBefore _ 4) = t!"G01" from by decide +kernel]
    exact h'

/-- **C69 does not hold** if the command is the first one: the digest of the whole file but its last character is taken,
not that of the empty text. -/
theorem c69_false_first (digest : Text → Text) (h : digest [] = value) (h' : digest (t!"%TF.MD5," ++ value ++ t!"*%M02") ≠ value) :
    let code := t!"%TF.MD5," ++ value ++ t!"*%M02*"
    (∃ src i, parseText years true code = some src ∧ src.nodes = [.tfMd5 value, .m02] ∧ src.infos[0]? = some i ∧ i.location = 0) ∧
    digest (signed code 0) = value ∧ checkSourceHash digest (expandTabs code) 0 value = false := by
  refine ⟨⟨_, _, rfl, rfl, rfl, rfl⟩, h, ?_⟩
  rw [Bool.eq_false_iff, ne_eq, check_iff,
    show List.filter _ (textBefore _ 0) = t!"%TF.MD5," ++ value ++ t!"*%M02" from by decide +kernel]
  exact h'

/-- **C69 does not hold** for texts with tabs: the digest is taken of the text with the tabs expanded. -/
theorem c69_false_tabs (digest : Text → Text) (h : digest t!"G04\tx*" = value) (h' : digest t!"G04     x*" ≠ value) :
    let code := t!"G04\tx*\n%TF.MD5," ++ value ++ t!"*%M02*"
    (∃ src i, parseText years true code = some src ∧ src.nodes = [.g04 t!"     x", .tfMd5 value, .m02] ∧ src.infos[1]? = some i ∧ i.location = 11) ∧
    digest (signed code 7) = value ∧ checkSourceHash digest (expandTabs code) 11 value = false := by
  refine ⟨⟨_, _, rfl, rfl, rfl, rfl⟩, ?_, ?_⟩
  · rw [show signed _ 7 = t!"G04\tx*" from by decide +kernel, h]
  · rw [Bool.eq_false_iff, ne_eq, check_iff, show List.filter _ (textBefore _ 11) = t!"G04     x*" from by decide +kernel]
    exact h'

/-- There are such digest functions. -/
example : ∃ digest : Text → Text, digest t!"G01*" = value ∧ digest t!"G01" ≠ value :=
  ⟨fun t => if t = t!"G01*" then value else [], rfl, by decide⟩

end Verif.Props.SourceHash
