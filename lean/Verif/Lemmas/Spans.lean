import Verif.Model.Spans
import Verif.Lemmas.Recover

/-!
# The grammar with positions reads the same nodes
-/

namespace Verif.Spans

open Verif.Text Verif.Fmt Verif.Syntax
open Verif.Math hiding P
open Verif.Peg (Text Res P firstOf Skips)
open Verif.Grammar (gDigits gOrder toLiteral floatText Entry)

/-! ## Forgetting positions -/

/-- The element without positions. -/
def erase {α : Type} (p : L α) : P α := fun s =>
  match p s with
  | .ok o r => .ok o.val r
  | .fail => .fail
  | .raised => .raised

theorem erase_ok {α : Type} {p : L α} {s r : Text} {o : Out α} (h : p s = .ok o r) : erase p s = .ok o.val r := by
  simp [erase, h]

theorem ok_of_erase {α : Type} {p : L α} {s r : Text} {a : α} (h : erase p s = .ok a r) :
    ∃ w ss, p s = .ok ⟨a, w, ss⟩ r := by
  unfold erase at h
  cases hp : p s with
  | ok o t => rw [hp] at h; simp only [Res.ok.injEq] at h; obtain ⟨rfl, rfl⟩ := h; exact ⟨_, _, rfl⟩
  | fail => rw [hp] at h; cases h
  | raised => rw [hp] at h; cases h

theorem fail_of_erase {α : Type} {p : L α} {s : Text} (h : erase p s = .fail) : p s = .fail := by
  unfold erase at h
  cases hp : p s with
  | ok o t => rw [hp] at h; cases h
  | fail => rfl
  | raised => rw [hp] at h; cases h

theorem erase_ret {α : Type} (a : α) : erase (ret a) = Peg.ret a := rfl

theorem erase_failing {α : Type} : erase (failing : L α) = fun _ => .fail := rfl

theorem erase_raise {α : Type} : erase (raise : L α) = Peg.raise := rfl

theorem erase_andThen {α β : Type} (p : L α) (f : α → L β) : erase (p ~~> f) = Peg.andThen (erase p) fun a => erase (f a) := by
  funext s
  simp only [erase, andThen, Peg.andThen]
  cases hp : p s with
  | ok o t => cases hq : f o.val t <;> simp [hq]
  | fail => rfl
  | raised => rfl

theorem erase_before {α β : Type} (p : L α) (q : L β) : erase (p ≫≫ q) = Peg.before (erase p) (erase q) :=
  erase_andThen _ _

theorem erase_mapL {α β : Type} (f : α → β) (p : L α) : erase (mapL f p) = Peg.mapP f (erase p) := by
  rw [mapL, erase_andThen]; rfl

theorem erase_opt {α : Type} (p : L α) : erase (opt p) = Peg.opt (erase p) := by
  funext s
  simp only [erase, opt, Peg.opt]
  cases p s <;> rfl

theorem erase_manyFuel {α : Type} (p : L α) : ∀ n, erase (manyFuel p n) = Peg.manyFuel (erase p) n
  | 0 => rfl
  | n + 1 => by
    funext s
    have ih := fun r => congrFun (erase_manyFuel p n) r
    simp only [erase, manyFuel, Peg.manyFuel, Peg.mapP, Peg.andThen] at ih ⊢
    cases hp : p s with
    | ok o t =>
      have := ih t
      cases hq : manyFuel p n t <;> rw [hq] at this <;> simp only [hq, ← this] <;> rfl
    | fail => rfl
    | raised => rfl

theorem erase_many {α : Type} (p : L α) : erase (many p) = Peg.many (erase p) := by
  funext s
  exact congrFun (erase_manyFuel p s.length) s

theorem erase_many1 {α : Type} (p : L α) : erase (many1 p) = Peg.many1 (erase p) := by
  rw [many1, erase_andThen, Peg.many1]
  simp only [erase_andThen, erase_many, erase_ret]

theorem erase_tok {α : Type} (p : P α) : erase (tok p) = p := by
  funext s
  simp only [erase, tok]
  cases p s <;> rfl

theorem erase_node {α : Type} (p : L α) : erase (node p) = erase p := by
  funext s
  simp only [erase, node]
  cases p s <;> rfl

theorem erase_firstOf {α : Type} (ps : List (L α)) : erase (firstOf ps) = firstOf (ps.map erase) := by
  induction ps with
  | nil => rfl
  | cons p ps ih =>
    funext s
    have := congrFun ih s
    simp only [erase, firstOf, Peg.orElse, List.map_cons] at this ⊢
    rw [← this]
    cases p s <;> rfl

theorem erase_ite {α : Type} (c : Prop) [Decidable c] (p q : L α) : erase (if c then p else q) = if c then erase p else erase q := by
  split <;> rfl

theorem erase_lit (w : Text) : erase (lit w) = Peg.lit w := erase_tok _
theorem erase_clit (w : Text) : erase (clit w) = Peg.clit w := erase_tok _
theorem erase_oneOf (w : List Text) : erase (oneOf w) = Peg.oneOf w := erase_tok _
theorem erase_name : erase name = Peg.name := erase_tok _
theorem erase_userName : erase userName = Peg.userName := erase_tok _
theorem erase_field : erase field = Peg.field := erase_tok _
theorem erase_double : erase double = Peg.double := erase_tok _
theorem erase_doubleText : erase doubleText = Peg.doubleText := erase_tok _
theorem erase_integer : erase integer = Peg.integer := erase_tok _
theorem erase_apertureId : erase apertureId = Peg.apertureId := erase_tok _
theorem erase_codeRe (c : Char) (w : Text) : erase (codeRe c w) = Peg.codeRe c w := erase_tok _
theorem erase_mZeros : erase mZeros = Peg.mZeros := erase_tok _
theorem erase_digit : erase digit = Peg.digit := erase_tok _
theorem erase_variable : erase variable_ = Grammar.variable_ := erase_tok _
theorem erase_followedBy (cs : List Char) : erase (followedBy cs) = Peg.followedBy cs := by
  funext s
  simp only [erase, followedBy]
  cases Peg.followedBy cs s <;> rfl
theorem erase_string : erase string = Peg.string := by
  funext s
  simp only [erase, string]
  cases Peg.string s <;> rfl
theorem erase_expr : erase expr = Peg.expr := by
  funext s
  simp only [erase, expr]
  cases Peg.expr s <;> rfl
theorem erase_asterisk : erase asterisk = Grammar.asterisk := erase_tok _
theorem erase_comma : erase comma = Grammar.comma := erase_tok _

theorem erase_command {α : Type} (p : L α) : erase (command p) = Grammar.command (erase p) := by
  simp only [command, erase_node, erase_andThen, erase_before, erase_asterisk, erase_ret]; rfl

theorem erase_extended {α : Type} (p : L α) : erase (extended p) = Grammar.extended (erase p) := by
  simp only [extended, erase_node, erase_andThen, erase_before, erase_asterisk, erase_lit, erase_ret]; rfl

theorem erase_cs {α : Type} (p : L α) : erase (cs p) = Grammar.cs (erase p) := by
  simp only [cs, erase_before, erase_comma]; rfl

theorem erase_fields : erase fields = Grammar.fields := by
  simp only [fields, erase_many, erase_cs, erase_field]; rfl

theorem erase_convert {α β : Type} (f : α → Option β) (p : L α) : erase (convert f p) = Grammar.convert f (erase p) := by
  rw [convert, erase_andThen, Grammar.convert]
  congr 1; funext a
  cases f a <;> rfl

/-- Forget positions in an element built from elements. -/
macro "erases" : tactic => `(tactic| simp only [erase_ret, erase_failing, erase_raise, erase_andThen, erase_before, erase_mapL, erase_opt,
  erase_many, erase_many1, erase_node, erase_firstOf, erase_ite, erase_lit, erase_clit, erase_oneOf, erase_name,
  erase_userName, erase_field, erase_double, erase_doubleText, erase_integer, erase_apertureId, erase_codeRe, erase_mZeros,
  erase_digit, erase_variable, erase_followedBy, erase_string, erase_expr, erase_asterisk, erase_comma, erase_command,
  erase_extended, erase_cs, erase_fields, erase_convert, List.map_cons, List.map_nil])

theorem erase_coordinate (c : Char) : erase (coordinate c) = Grammar.coordinate c := by
  unfold coordinate; erases; rfl

theorem erase_one (p : L Node) : erase (one p) = Grammar.one (erase p) := by
  unfold one; erases; rfl

theorem erase_dCodes (b : Bool) : erase (dCodes b) = Grammar.dCodes b := by
  unfold dCodes dnn d01 d02 d03; erases; simp only [erase_coordinate]; rfl

theorem erase_gStandalone (c : GCode) : erase (gStandalone c) = Grammar.gStandalone c := by
  unfold gStandalone; erases; rfl

theorem andThen_assoc {α β γ : Type} (p : P α) (f : α → P β) (g : β → P γ) :
    Peg.andThen (Peg.andThen p f) g = Peg.andThen p fun a => Peg.andThen (f a) g := by
  funext s
  simp only [Peg.andThen]
  cases p s <;> rfl

theorem erase_gNonStandalone (c : GCode) : erase (gNonStandalone c) = Grammar.gNonStandalone c := by
  unfold gNonStandalone; erases; simp only [erase_dCodes, Peg.before, andThen_assoc]; rfl

theorem erase_gCodes : erase gCodes = Grammar.gCodes := by
  unfold gCodes g04
  simp only [gOrder, List.map_cons, List.map_nil, List.cons_append, List.nil_append]
  erases
  simp only [erase_one, erase_gStandalone, erase_gNonStandalone]
  erases
  rfl

theorem erase_load : erase load = Grammar.load := by
  unfold load ln lp lr ls lm; erases; rfl

theorem erase_point : erase point = Grammar.point := by
  unfold point; erases; rfl

theorem erase_primitive : erase primitive = Grammar.primitive := by
  unfold primitive assignment code0 code1 code2 code4 code5 code6 code7 code20 code21 code22
  erases; simp only [erase_point]; rfl

theorem erase_macro : erase macro_ = Grammar.macro_ := by
  unfold macro_; erases; simp only [erase_primitive, Peg.before, andThen_assoc]; rfl

theorem erase_xDouble : erase xDouble = Grammar.xDouble := by
  unfold xDouble; erases; rfl

theorem erase_addAperture : erase addAperture = Grammar.addAperture := by
  unfold addAperture adc adr ado adp adMacro; erases; simp only [erase_xDouble]; rfl

theorem erase_upTo3 : erase upTo3 = Grammar.upTo3 := by
  unfold upTo3; erases; rfl

theorem erase_ta : erase ta = Grammar.ta := by
  unfold ta taUser taFunction taDrill taFlash; erases; rfl

theorem erase_td : erase td = Grammar.td := by
  unfold td; erases; rfl

theorem erase_tf (rd : Text → Option Text) : erase (tf rd) = Grammar.tf rd := by
  unfold tf tfUser tfPart tfFunction tfPolarity tfSame tfDate tfSoftware tfProject tfMd5
  erases; simp only [erase_upTo3]; rfl

theorem erase_toText (k : ToKind) : erase (toText k) = Grammar.toText k := by
  unfold toText; erases; rfl

theorem erase_to : erase to_ = Grammar.to_ := by
  unfold to_ toUser toN toP toRot toMount toHeight toSup; erases; simp only [erase_toText]; rfl

theorem erase_attributes (rd : Text → Option Text) : erase (attributes rd) = Grammar.attributes rd := by
  unfold attributes; erases; simp only [erase_ta, erase_td, erase_tf, erase_to]; rfl

theorem erase_boolean : erase boolean = Grammar.boolean := by
  unfold boolean; erases; rfl

theorem erase_properties : erase properties = Grammar.properties := by
  unfold properties fs mo ip ir of_ as_ mi in_ sf; erases; simp only [erase_boolean]; rfl

theorem erase_mCodes : erase mCodes = Grammar.mCodes := by
  unfold mCodes; erases; rfl

theorem erase_bodyItem (rd : Text → Option Text) (p : L Node) : erase (bodyItem rd p) = Grammar.bodyItem rd (erase p) := by
  unfold bodyItem; erases
  simp only [erase_one, erase_dCodes, erase_gCodes, erase_load, erase_properties, erase_attributes, erase_addAperture, erase_macro,
    erase_mCodes]; rfl

theorem erase_abOpen : erase abOpen = Grammar.abOpen := by unfold abOpen; erases; rfl
theorem erase_abClose : erase abClose = Grammar.abClose := by unfold abClose; erases; rfl
theorem erase_srOpen : erase srOpen = Grammar.srOpen := by unfold srOpen; erases; rfl
theorem erase_srClose : erase srClose = Grammar.srClose := by unfold srClose; erases; rfl

theorem erase_apertureBlock (rd : Text → Option Text) : ∀ k, erase (apertureBlock rd k) = Grammar.apertureBlock rd k
  | 0 => rfl
  | k + 1 => by
    unfold apertureBlock; erases
    simp only [erase_abOpen, erase_abClose, erase_bodyItem, erase_apertureBlock rd k]; rfl

theorem erase_stepRepeat (rd : Text → Option Text) (k : Nat) : erase (stepRepeat rd k) = Grammar.stepRepeat rd k := by
  unfold stepRepeat; erases
  simp only [erase_srOpen, erase_srClose, erase_bodyItem, erase_apertureBlock rd k]; rfl

theorem erase_aperture (rd : Text → Option Text) (k : Nat) : erase (aperture rd k) = Grammar.aperture rd k := by
  unfold aperture; erases
  simp only [erase_apertureBlock, erase_macro, erase_stepRepeat, erase_addAperture]; rfl

theorem erase_rootItem (rd : Text → Option Text) (k : Nat) : erase (rootItem rd k) = Grammar.rootItem rd k := by
  unfold rootItem; erases
  simp only [erase_one, erase_dCodes, erase_gCodes, erase_load, erase_aperture, erase_attributes, erase_properties,
    erase_mCodes]; rfl

theorem erase_resilientItem (rd : Text → Option Text) (k : Nat) : erase (resilientItem rd k) = Grammar.resilientItem rd k := by
  unfold resilientItem valid invalidToken; erases
  simp only [erase_one, erase_dCodes, erase_gCodes, erase_load, erase_aperture, erase_attributes, erase_properties,
    erase_mCodes, erase_tok]; rfl

end Verif.Spans
