import Verif.Lemmas.ReadAttributes
import Verif.Lemmas.ReadMacro

/-!
# Spellings of files are read as these files
-/

namespace Verif.Reading

open Verif.Text Verif.Fmt Verif.Peg Verif.Syntax Verif.Grammar Verif.Spec
open Verif.Math hiding P

variable {date : Text → Option Text}

/-! ## Blanks behind `%` -/

/-- Blanks behind a percent sign do not matter. -/
def Pskips {α : Type} (p : P α) : Prop := ∀ b s, Blank b → p ('%' :: (b ++ s)) = p ('%' :: s)

theorem Pskips.andThen {α β : Type} {p : P α} (h : Pskips p) (f : α → P β) : Pskips (p ~> f) := by
  intro b s hb
  simp only [Peg.andThen, h b s hb]

theorem Pskips.firstOf {α : Type} {ps : List (P α)} (h : ∀ p ∈ ps, Pskips p) : Pskips (firstOf ps) := by
  induction ps with
  | nil => intro b s _; rfl
  | cons p ps ih =>
    intro b s hb
    simp only [Peg.firstOf, Peg.orElse, h p (by simp) b s hb, ih (fun q hq => h q (by simp [hq])) b s hb]

theorem Pskips.fail {α : Type} {p : P α} (h : ∀ s, p ('%' :: s) = .fail) : Pskips p := fun b s _ => by rw [h, h]

theorem pskips_lit {α : Type} {q : P α} (h : Skips q) : Pskips (lit ['%'] ≫ q) := by
  intro b s hb
  simp only [Peg.before, Peg.andThen, lit_cons (show isBlank '%' = false by decide), strip, ofStrip, if_true]
  exact h.blank hb s

theorem pskips_ext {α : Type} {w : Text} {q : P α} : Pskips (extended (lit w ≫ q)) :=
  pskips_lit (((skips_lit w).before _).andThen _)

theorem pskips_ext' {w : Text} : Pskips (extended (lit w)) := pskips_lit ((skips_lit w).andThen _)

theorem pskips_load : Pskips load := by
  apply Pskips.firstOf
  simp only [List.mem_cons, List.not_mem_nil, or_false, forall_eq_or_imp, forall_eq]
  exact ⟨pskips_ext, pskips_ext, pskips_ext, pskips_ext, pskips_ext⟩

theorem pskips_properties : Pskips properties := by
  apply Pskips.firstOf
  simp only [List.mem_cons, List.not_mem_nil, or_false, forall_eq_or_imp, forall_eq]
  exact ⟨pskips_ext, pskips_ext, pskips_ext, pskips_ext.andThen _, pskips_ext, pskips_ext, pskips_ext, pskips_ext, pskips_ext⟩

theorem pskips_addAperture : Pskips addAperture := by
  apply Pskips.firstOf
  simp only [List.mem_cons, List.not_mem_nil, or_false, forall_eq_or_imp, forall_eq]
  exact ⟨pskips_ext, pskips_ext, pskips_ext, pskips_ext.andThen _, pskips_ext⟩

theorem pskips_attributes : Pskips (attributes date) := by
  apply Pskips.firstOf
  simp only [List.mem_cons, List.not_mem_nil, or_false, forall_eq_or_imp, forall_eq]
  refine ⟨?_, pskips_ext, ?_, ?_⟩
  · apply Pskips.firstOf
    simp only [List.mem_cons, List.not_mem_nil, or_false, forall_eq_or_imp, forall_eq]
    exact ⟨pskips_ext, pskips_ext, pskips_ext, pskips_ext⟩
  · apply Pskips.firstOf
    simp only [List.mem_cons, List.not_mem_nil, or_false, forall_eq_or_imp, forall_eq]
    exact ⟨pskips_ext, pskips_ext.andThen _, pskips_ext.andThen _, pskips_ext.andThen _, pskips_ext, pskips_ext.andThen _,
      pskips_ext, pskips_ext, pskips_ext.andThen _⟩
  · apply Pskips.firstOf
    simp only [List.mem_cons, List.not_mem_nil, or_false, forall_eq_or_imp, forall_eq]
    exact ⟨pskips_ext, pskips_ext, pskips_ext, pskips_ext, pskips_ext.andThen _, pskips_ext, pskips_ext, pskips_ext, pskips_ext.andThen _,
      pskips_ext, pskips_ext, pskips_ext, pskips_ext.andThen _, pskips_ext, pskips_ext, pskips_ext⟩

theorem pskips_macro : Pskips macro_ := pskips_lit ((skips_lit _).before _)

theorem pskips_block (k : Nat) : Pskips (apertureBlock date k) := by
  cases k with
  | zero => intro b s _; rfl
  | succ k => exact pskips_ext.andThen _

theorem pskips_one {p : P Node} (h : Pskips p) : Pskips (one p) := h.andThen _

theorem pskips_root (k : Nat) : Pskips (rootItem date k) := by
  apply Pskips.firstOf
  simp only [List.mem_cons, List.not_mem_nil, or_false, forall_eq_or_imp, forall_eq]
  refine ⟨.fail fd_percent, .fail fg_percent, pskips_one pskips_load, pskips_one ?_, pskips_one pskips_attributes,
    pskips_one pskips_properties, .fail fun s => one_fail (mCodes_fail (by decide) (by decide))⟩
  apply Pskips.firstOf
  simp only [List.mem_cons, List.not_mem_nil, or_false, forall_eq_or_imp, forall_eq]
  exact ⟨pskips_block k, pskips_macro, pskips_ext.andThen _, pskips_addAperture⟩

theorem pskips_body (k : Nat) : Pskips (bodyItem date (apertureBlock date k)) := by
  apply Pskips.firstOf
  simp only [List.mem_cons, List.not_mem_nil, or_false, forall_eq_or_imp, forall_eq]
  exact ⟨.fail fd_percent, .fail fg_percent, pskips_one pskips_load, pskips_one pskips_properties, pskips_one pskips_attributes,
    pskips_one pskips_addAperture, fun _ _ _ => rfl, pskips_one (pskips_block k), pskips_one pskips_macro,
    .fail fun s => one_fail (mCodes_fail (by decide) (by decide))⟩

/-! ## Items -/

/-- The commands that are read at the top of a file and inside blocks. -/
def item (date : Text → Option Text) (top : Bool) (k : Nat) : P (List Node) :=
  if top then rootItem date k else bodyItem date (apertureBlock date k)

theorem skips_item (top : Bool) (k : Nat) : Skips (item date top k) := by
  cases top
  · exact skips_bodyItem date (skips_apertureBlock date k)
  · exact skips_rootItem date k

theorem pskips_item (top : Bool) (k : Nat) : Pskips (item date top k) := by
  cases top
  · exact pskips_body k
  · exact pskips_root k

/-- Texts of extended commands. -/
def Shape (x y : Char) (w : Text) : Prop := ∃ b b' t, Blank b ∧ Blank b' ∧ w = b ++ '%' :: (b' ++ x :: y :: t)

theorem Shape.append {x y : Char} {w : Text} (h : Shape x y w) (r : Text) : Shape x y (w ++ r) := by
  obtain ⟨b, b', t, hb, hb', rfl⟩ := h
  exact ⟨b, b', t ++ r, hb, hb', by simp⟩

/-- A reader that skips blanks. -/
theorem shape_read {α : Type} {p : P α} {x y : Char} {s : Text} (h : Skips p) (h' : Pskips p) (hs : Shape x y s) :
    ∃ t, ∀ (q : P (List Node)) (_ : Skips q) (_ : Pskips q), p s = p ('%' :: x :: y :: t) ∧ q s = q ('%' :: x :: y :: t) := by
  obtain ⟨b, b', t, hb, hb', rfl⟩ := hs
  refine ⟨t, fun q h1 h2 => ⟨?_, ?_⟩⟩
  · rw [h.blank hb, h' _ _ hb']
  · rw [h1.blank hb, h2 _ _ hb']

theorem item_load {x y : Char} {s r : Text} {n : Node} (top : Bool) (k : Nat) (hs : Shape x y s) (h : load s = .ok n r) :
    item date top k s = .ok [n] r := by
  obtain ⟨t, ht⟩ := shape_read skips_load pskips_load hs
  obtain ⟨h1, h2⟩ := ht _ (skips_item (date := date) top k) (pskips_item top k)
  rw [h1] at h
  rw [h2]
  cases top
  · exact body_load h
  · exact root_load h

theorem item_prop {x y : Char} {s r : Text} {n : Node} (top : Bool) (k : Nat) (hs : Shape x y s) (hx : isBlank x = false)
    (hw : [x, y] ∈ propWords) (h : properties s = .ok n r) : item date top k s = .ok [n] r := by
  obtain ⟨t, ht⟩ := shape_read skips_properties pskips_properties hs
  obtain ⟨h1, h2⟩ := ht _ (skips_item (date := date) top k) (pskips_item top k)
  rw [h1] at h
  rw [h2]
  cases top
  · exact body_prop hx hw h
  · exact root_prop hx hw h

theorem item_attr {x y : Char} {s r : Text} {n : Node} (top : Bool) (k : Nat) (hs : Shape x y s) (hx : isBlank x = false)
    (hw : [x, y] ∈ attrWords) (h : attributes date s = .ok n r) : item date top k s = .ok [n] r := by
  obtain ⟨t, ht⟩ := shape_read (skips_attributes date) pskips_attributes hs
  obtain ⟨h1, h2⟩ := ht _ (skips_item (date := date) top k) (pskips_item top k)
  rw [h1] at h
  rw [h2]
  cases top
  · exact body_attr hx hw h
  · exact root_attr hx hw h

theorem item_ad {s r : Text} {n : Node} (top : Bool) (k : Nat) (hs : Shape 'A' 'D' s) (h : addAperture s = .ok n r) :
    item date top k s = .ok [n] r := by
  obtain ⟨t, ht⟩ := shape_read skips_addAperture pskips_addAperture hs
  obtain ⟨h1, h2⟩ := ht _ (skips_item (date := date) top k) (pskips_item top k)
  rw [h1] at h
  rw [h2]
  cases top
  · exact body_ad (rd := date) h
  · exact root_ad h

theorem item_am {s r : Text} {n : Node} (top : Bool) (k : Nat) (hs : Shape 'A' 'M' s) (h : macro_ s = .ok n r) :
    item date top k s = .ok [n] r := by
  obtain ⟨t, ht⟩ := shape_read skips_macro pskips_macro hs
  obtain ⟨h1, h2⟩ := ht _ (skips_item (date := date) top k) (pskips_item top k)
  rw [h1] at h
  rw [h2]
  cases top
  · exact body_am (rd := date) (apertureBlock_fail (by decide) (by decide)) h
  · exact root_am h

theorem item_ab {s r : Text} {n : Node} (top : Bool) (k : Nat) (hs : Shape 'A' 'B' s) (h : apertureBlock date k s = .ok n r) :
    item date top k s = .ok [n] r := by
  obtain ⟨t, ht⟩ := shape_read (skips_apertureBlock date k) (pskips_block k) hs
  obtain ⟨h1, h2⟩ := ht _ (skips_item (date := date) top k) (pskips_item top k)
  rw [h1] at h
  rw [h2]
  cases top
  · exact body_ab (rd := date) h
  · exact root_ab h

theorem item_sr {s r : Text} {n : Node} (k : Nat) (hs : Shape 'S' 'R' s) (h : stepRepeat date k s = .ok n r) :
    item date true k s = .ok [n] r := by
  obtain ⟨t, ht⟩ := shape_read (p := stepRepeat date k) ((skips_extended _).andThen _) (pskips_ext.andThen _) hs
  obtain ⟨h1, h2⟩ := ht _ (skips_item (date := date) true k) (pskips_item true k)
  rw [h1] at h
  rw [h2]
  exact root_sr h

theorem item_d {s r : Text} {n : Node} (top : Bool) (k : Nat) (h : dCodes true s = .ok n r) : item date top k s = .ok [n] r := by
  cases top
  · exact body_d h
  · exact root_d h

theorem item_g {s r b t : Text} {ns : List Node} (top : Bool) (k : Nat) (hb : Blank b) (hs : s = b ++ 'G' :: t) (h : gCodes s = .ok ns r) :
    item date top k s = .ok ns r := by
  subst hs
  rw [(skips_item top k).blank hb]
  rw [skips_gCodes.blank hb] at h
  cases top
  · exact body_g h
  · exact root_g h

theorem item_m {s r b t : Text} {n : Node} (top : Bool) (k : Nat) (hb : Blank b) (hs : s = b ++ 'M' :: t) (h : mCodes s = .ok n r) :
    item date top k s = .ok [n] r := by
  subst hs
  rw [(skips_item top k).blank hb]
  rw [skips_mCodes.blank hb] at h
  cases top
  · exact body_m (rd := date) (apertureBlock_np (by decide) (by decide)) h
  · exact root_m h

/-! ## Shapes of commands -/

/-- Texts that begin with a word of two letters. -/
def Begins (x y : Char) (w : Text) : Prop := ∃ b t, Blank b ∧ w = b ++ x :: y :: t

theorem begins_word {x y : Char} : All (word [x, y]) (Begins x y) := all_word.2 fun b hb => ⟨b, [], hb, rfl⟩

theorem begins_mul {x y : Char} {l m : Language Char} (h : All l (Begins x y)) : All (l * m) (Begins x y) := by
  refine all_mul.2 fun u hu v _ => ?_
  obtain ⟨b, t, hb, rfl⟩ := h u hu
  exact ⟨b, t ++ v, hb, by simp⟩

theorem shape_open {x y : Char} {l : Language Char} (h : All l (Begins x y)) : All (word t!"%" * l) (Shape x y) := by
  refine all_mul.2 (all_word.2 fun b hb v hv => ?_)
  obtain ⟨b', t, hb', rfl⟩ := h v hv
  exact ⟨b, b', t, hb, hb', by simp⟩

theorem shape_mul {x y : Char} {l m : Language Char} (h : All l (Shape x y)) : All (l * m) (Shape x y) :=
  all_mul.2 fun u hu v _ => (h u hu).append v

/-- The word of an extended command. -/
macro "shape" : tactic => `(tactic| (
  repeat' (with_reducible first
    | refine all_provided.2 fun _ => ?_
    | refine all_ex.2 fun _ _ => ?_
    | refine shape_open ?_
    | refine shape_mul ?_
    | exact begins_word
    | refine begins_mul ?_)))

/-- The first letter of a code. -/
def Lead (c : Char) (w : Text) : Prop := ∃ b t, Blank b ∧ w = b ++ c :: t

theorem lead_code {c : Char} {n : ℕ} : All (code c n) (Lead c) := by
  refine all_tok.2 ?_
  rintro b hb _ ⟨ds, -, -, -, rfl⟩
  exact ⟨b, ds, hb, rfl⟩

theorem lead_mul {c : Char} {l m : Language Char} (h : All l (Lead c)) : All (l * m) (Lead c) := by
  refine all_mul.2 fun u hu v _ => ?_
  obtain ⟨b, t, hb, rfl⟩ := h u hu
  exact ⟨b, t ++ v, hb, by simp⟩

/-- Every command on its own. -/
theorem read_command (n : Node) (own : OnItsOwn n) (hn : ¬LooksStandard n) (top : Bool) (k : Nat) :
    All (commandText date n) fun w => ∀ r, item date top k (w ++ r) = .ok [n] r := by
  have loads (x y : Char) (hs : All (commandText date n) (Shape x y))
      (h : All (commandText date n) fun w => ∀ r, load (w ++ r) = .ok n r) :
      All (commandText date n) fun w => ∀ r, item date top k (w ++ r) = .ok [n] r :=
    fun w hw r => item_load top k ((hs w hw).append r) (h w hw r)
  have props (x y : Char) (hx : isBlank x = false) (hxy : [x, y] ∈ propWords) (hs : All (commandText date n) (Shape x y))
      (h : All (commandText date n) fun w => ∀ r, properties (w ++ r) = .ok n r) :
      All (commandText date n) fun w => ∀ r, item date top k (w ++ r) = .ok [n] r :=
    fun w hw r => item_prop top k ((hs w hw).append r) hx hxy (h w hw r)
  have attrs (x y : Char) (hx : isBlank x = false) (hxy : [x, y] ∈ attrWords) (hs : All (commandText date n) (Shape x y))
      (h : All (commandText date n) fun w => ∀ r, attributes date (w ++ r) = .ok n r) :
      All (commandText date n) fun w => ∀ r, item date top k (w ++ r) = .ok [n] r :=
    fun w hw r => item_attr top k ((hs w hw).append r) hx hxy (h w hw r)
  have ads (hs : All (commandText date n) (Shape 'A' 'D'))
      (h : All (commandText date n) fun w => ∀ r, addAperture (w ++ r) = .ok n r) :
      All (commandText date n) fun w => ∀ r, item date top k (w ++ r) = .ok [n] r :=
    fun w hw r => item_ad top k ((hs w hw).append r) (h w hw r)
  have ds (h : All (commandText date n) fun w => ∀ r, dCodes true (w ++ r) = .ok n r) :
      All (commandText date n) fun w => ∀ r, item date top k (w ++ r) = .ok [n] r :=
    fun w hw r => item_d top k (h w hw r)
  have gs (hs : All (commandText date n) (Lead 'G'))
      (h : All (commandText date n) fun w => ∀ r, gCodes (w ++ r) = .ok [n] r) :
      All (commandText date n) fun w => ∀ r, item date top k (w ++ r) = .ok [n] r := by
    intro w hw r
    obtain ⟨b, t, hb, rfl⟩ := hs w hw
    exact item_g top k hb (t := t ++ r) (by simp) (h _ hw r)
  have ms (hs : All (commandText date n) (Lead 'M'))
      (h : All (commandText date n) fun w => ∀ r, mCodes (w ++ r) = .ok n r) :
      All (commandText date n) fun w => ∀ r, item date top k (w ++ r) = .ok [n] r := by
    intro w hw r
    obtain ⟨b, t, hb, rfl⟩ := hs w hw
    exact item_m top k hb (t := t ++ r) (by simp) (h _ hw r)
  cases n with
  | ab i body => exact fun w hw => hw.elim
  | sr x y i j body => exact fun w hw => hw.elim
  | am m ps =>
    have hs : All (commandText date (.am m ps)) (Shape 'A' 'M') := by simp only [commandText]; shape
    exact fun w hw r => item_am top k ((hs w hw).append r) (read_am date m ps w hw r)
  | adc i d h => exact ads (by simp only [commandText, percented]; shape) (read_adc date i d h)
  | adr i x y h => exact ads (by simp only [commandText, percented]; shape) (read_adr date i x y h)
  | ado i x y h => exact ads (by simp only [commandText, percented]; shape) (read_ado date i x y h)
  | adp i d m x h => exact ads (by simp only [commandText, percented]; shape) (read_adp date i d m x h)
  | adMacro i m ps =>
    match ps with
    | none => exact ads (by simp only [commandText, percented]; shape) (read_adMacro date i m)
    | some [] => exact fun w hw => hw.elim
    | some (p :: ps) => exact ads (by simp only [commandText, percented]; shape) (read_adMacros date i m p ps hn)
  | taUser m fs => exact attrs 'T' 'A' (by decide) (by decide) (by simp only [commandText, attribute_]; shape) (read_taUser date m fs)
  | taFunction f fs =>
    cases f with
    | none => exact attrs 'T' 'A' (by decide) (by decide) (by simp only [commandText, attribute_]; shape) (read_taOther date fs)
    | some f => exact attrs 'T' 'A' (by decide) (by decide) (by simp only [commandText, attribute_]; shape) (read_taFunction date f fs)
  | taDrill p m => exact attrs 'T' 'A' (by decide) (by decide) (by simp only [commandText, percented]; shape) (read_taDrill date p m)
  | taFlash s m x f z cs =>
    match f, z with
    | some f, some z =>
      exact attrs 'T' 'A' (by decide) (by decide) (by simp only [commandText, attribute_]; shape) (read_taFlash date s m x f z cs)
    | none, _ => exact fun w hw => hw.elim
    | some _, none => exact fun w hw => hw.elim
  | td t =>
    cases t with
    | none => exact attrs 'T' 'D' (by decide) (by decide) (by simp only [commandText]; shape) (read_td date _)
    | some t => exact attrs 'T' 'D' (by decide) (by decide) (by simp only [commandText]; shape) (read_td date _)
  | tfUser m fs => exact attrs 'T' 'F' (by decide) (by decide) (by simp only [commandText, attribute_]; shape) (read_tfUser date m fs)
  | tfPart p fs => exact attrs 'T' 'F' (by decide) (by decide) (by simp only [commandText, attribute_]; shape) (read_tfPart date p fs)
  | tfFunction p fs => exact attrs 'T' 'F' (by decide) (by decide) (by simp only [commandText, attribute_]; shape) (read_tfFunction date p fs)
  | tfPolarity p => exact attrs 'T' 'F' (by decide) (by decide) (by simp only [commandText, attribute_]; shape) (read_tfPolarity date p)
  | tfSame i => exact attrs 'T' 'F' (by decide) (by decide) (by simp only [commandText, attribute_]; shape) (read_tfSame date i)
  | tfDate d => exact attrs 'T' 'F' (by decide) (by decide) (by simp only [commandText, attribute_]; shape) (read_tfDate date d)
  | tfSoftware a b c => exact attrs 'T' 'F' (by decide) (by decide) (by simp only [commandText, attribute_]; shape) (read_tfSoftware date a b c)
  | tfProject a b c => exact attrs 'T' 'F' (by decide) (by decide) (by simp only [commandText, attribute_]; shape) (read_tfProject date a b c)
  | tfMd5 h => exact attrs 'T' 'F' (by decide) (by decide) (by simp only [commandText, attribute_]; shape) (read_tfMd5 date h)
  | toUser m fs => exact attrs 'T' 'O' (by decide) (by decide) (by simp only [commandText, attribute_]; shape) (read_toUser date m fs)
  | toN fs => exact attrs 'T' 'O' (by decide) (by decide) (by simp only [commandText, attribute_]; shape) (read_toN date fs)
  | toP x m f => exact attrs 'T' 'O' (by decide) (by decide) (by simp only [commandText, attribute_]; shape) (read_toP date x m f)
  | toText j v => exact attrs 'T' 'O' (by decide) (by decide) (by simp only [commandText, attribute_]; shape) (read_toText date j v)
  | toRot q => exact attrs 'T' 'O' (by decide) (by decide) (by simp only [commandText, attribute_]; shape) (read_toRot date q)
  | toHeight q => exact attrs 'T' 'O' (by decide) (by decide) (by simp only [commandText, attribute_]; shape) (read_toHeight date q)
  | toMount m => exact attrs 'T' 'O' (by decide) (by decide) (by simp only [commandText, attribute_]; shape) (read_toMount date m)
  | toSup a b cs => exact attrs 'T' 'O' (by decide) (by decide) (by simp only [commandText, attribute_]; shape) (read_toSup date a b cs)
  | dnn i s => obtain rfl : s = true := own; exact ds (read_dnn date i true)
  | d01 x y i j s => obtain rfl : s = true := own; exact ds (read_d01 date x y i j true)
  | d02 x y s => obtain rfl : s = true := own; exact ds (read_d02 date x y true)
  | d03 x y s => obtain rfl : s = true := own; exact ds (read_d03 date x y true)
  | g c s =>
    obtain rfl : s = true := own
    exact gs (by simp only [commandText, starred]; exact lead_mul lead_code) (read_g date c)
  | g04 t =>
    cases t with
    | none => exact gs (by simp only [commandText]; exact lead_mul lead_code) (read_g04 date)
    | some t =>
      refine gs (by
        simp only [commandText]
        refine lead_mul (all_tok.2 ?_)
        rintro b hb _ ⟨zs, -, rfl⟩
        exact ⟨b, zs ++ t!"4", hb, by simp⟩) (read_comment date t)
  | lm m => exact loads 'L' 'M' (by simp only [commandText, percented]; shape) (read_lm date m)
  | ln t => exact loads 'L' 'N' (by simp only [commandText]; shape) (read_ln date t)
  | lp p => exact loads 'L' 'P' (by simp only [commandText, percented]; shape) (read_lp date p)
  | lr q => exact loads 'L' 'R' (by simp only [commandText, percented]; shape) (read_lr date q)
  | ls q => exact loads 'L' 'S' (by simp only [commandText, percented]; shape) (read_ls date q)
  | m00 => exact ms (by simp only [commandText, starred]; exact lead_mul lead_code) (read_m00 date)
  | m01 => exact ms (by simp only [commandText, starred]; exact lead_mul lead_code) (read_m01 date)
  | m02 => exact ms (by simp only [commandText, starred]; exact lead_mul lead_code) (read_m02 date)
  | as_ c => exact props 'A' 'S' (by decide) (by decide) (by simp only [commandText, percented]; shape) (read_as date c)
  | fs z m a b c d => exact props 'F' 'S' (by decide) (by decide) (by simp only [commandText, percented]; shape) (read_fs date z m a b c d)
  | in_ t => exact props 'I' 'N' (by decide) (by decide) (by simp only [commandText]; shape) (read_in date t)
  | ip p => exact props 'I' 'P' (by decide) (by decide) (by simp only [commandText, percented]; shape) (read_ip date p)
  | ir m => exact props 'I' 'R' (by decide) (by decide) (by simp only [commandText, percented]; shape) (read_ir date m)
  | mi a b => exact props 'M' 'I' (by decide) (by decide) (by simp only [commandText, percented]; shape) (read_mi date a b)
  | mo m => exact props 'M' 'O' (by decide) (by decide) (by simp only [commandText, percented]; shape) (read_mo date m)
  | of_ a b => exact props 'O' 'F' (by decide) (by decide) (by simp only [commandText, percented]; shape) (read_of date a b)
  | sf a b => exact props 'S' 'F' (by decide) (by decide) (by simp only [commandText, percented]; shape) (read_sf date a b)

/-! ## Blocks -/

theorem read_abOpen (i : Text) : All (percented (word t!"AB" * apertureCode i)) fun w => ∀ r, abOpen (w ++ r) = .ok i r := by
  parts
  spell
  intro r
  run [abOpen]

theorem read_abClose : All (percented (word t!"AB")) fun w => ∀ r, abClose (w ++ r) = .ok () r := by
  parts
  spell
  intro r
  run [abClose]

theorem read_srClose : All (percented (word t!"SR")) fun w => ∀ r, srClose (w ++ r) = .ok () r := by
  parts
  spell
  intro r
  run [srClose]

theorem read_srOpen (x y i j : Option Text) : All (percented (word t!"SR" * perhaps (fun q => word t!"X" * numberAs q) x *
      perhaps (fun q => word t!"Y" * numberAs q) y * perhaps (fun q => word t!"I" * numberAs q) i *
      perhaps (fun q => word t!"J" * numberAs q) j)) fun w => ∀ r, srOpen (w ++ r) = .ok (x, y, i, j) r := by
  cases x <;> cases y <;> cases i <;> cases j
  all_goals
    parts
    spell
    intro r
    run [srOpen]

theorem shape_ab : All (percented (word t!"AB")) (Shape 'A' 'B') := by simp only [percented]; shape

theorem shape_sr : All (percented (word t!"SR")) (Shape 'S' 'R') := by simp only [percented]; shape

theorem shape_abOpen (i : Text) : All (percented (word t!"AB" * apertureCode i)) (Shape 'A' 'B') := by
  simp only [percented]; shape

theorem shape_srOpen (x y i j : Option Text) : All (percented (word t!"SR" * perhaps (fun q => word t!"X" * numberAs q) x *
      perhaps (fun q => word t!"Y" * numberAs q) y * perhaps (fun q => word t!"I" * numberAs q) i *
      perhaps (fun q => word t!"J" * numberAs q) j)) (Shape 'S' 'R') := by
  simp only [percented]; shape

/-- Blocks end where they are closed. -/
theorem stop_ab (k : Nat) : All (percented (word t!"AB")) fun w => ∀ r, item date false k (w ++ r) = .fail := by
  intro w hw r
  have h : apertureBlock date k (w ++ r) = .fail := by
    cases k with
    | zero => rfl
    | succ k =>
      have : abOpen (w ++ r) = .fail := by
        revert w r
        change All (percented (word t!"AB")) fun w => ∀ r, abOpen (w ++ r) = .fail
        parts
        spell
        intro r
        run [abOpen]
      simp only [apertureBlock, Peg.andThen, this]
  obtain ⟨t, ht⟩ := shape_read (skips_apertureBlock date k) (pskips_block k) ((shape_ab w hw).append r)
  obtain ⟨h1, h2⟩ := ht _ (skips_item (date := date) false k) (pskips_item false k)
  rw [h2]
  exact body_stop_ab (rd := date) (h1 ▸ h)

theorem stop_sr (k : Nat) : All (percented (word t!"SR")) fun w => ∀ r, item date false k (w ++ r) = .fail := by
  intro w hw r
  obtain ⟨t, ht⟩ := shape_read (skips_apertureBlock date k) (pskips_block k) ((shape_sr w hw).append r)
  obtain ⟨h1, h2⟩ := ht _ (skips_item (date := date) false k) (pskips_item false k)
  rw [h2]
  exact body_stop_sr (rd := date) (apertureBlock_fail (by decide) (by decide))

theorem item_nil (top : Bool) (k : Nat) : item date top k [] = .fail := by
  cases top <;> cases k <;> rfl

/-- A reader of something does not read nothing. -/
theorem pos_of_read {top : Bool} {k : Nat} {w : Text} {ns : List Node} (h : ∀ r, item date top k (w ++ r) = .ok ns r) : 0 < w.length := by
  cases w with
  | nil =>
    have := h []
    rw [List.nil_append, item_nil] at this
    cases this
  | cons c w => simp

/-- Some repetitions of an element. -/
inductive Steps {α : Type} (p : P α) : Text → List α → Text → Prop
  | none {s : Text} : Steps p s [] s
  | step {s t r : Text} {a : α} {as : List α} : p s = .ok a t → t.length < s.length → Steps p t as r → Steps p s (a :: as) r

theorem Steps.run {α : Type} {p : P α} {s r : Text} {as : List α} (h : Steps p s as r) (hr : p r = .fail) : Run p s as r := by
  induction h with
  | none => exact .stop hr
  | step h1 h2 _ ih => exact .step h1 h2 (ih hr)

/-- Spellings are read as what they spell, whatever stands behind them. -/
theorem read_spelled {top : Bool} {ns : List Node} {w : Text} (h : Spelled date top ns w) : ∀ (k : Nat) (r : Text),
    (∀ n, Occurs n ns → ¬LooksStandard n) → w.length ≤ k → ∃ nss, Steps (item date top k) (w ++ r) nss r ∧ nss.flatten = ns := by
  induction h with
  | none => exact fun k r _ _ => ⟨[], .none, rfl⟩
  | @command top n ns t u own text rest ih =>
    intro k r hn hk
    simp only [List.length_append] at hk
    obtain ⟨nss, h1, rfl⟩ := ih k r (fun m hm => hn m (by
      cases hm with
      | here h => exact .here (by simp [h])
      | block h h' => exact .block (List.mem_cons_of_mem _ h) h'
      | repeated h h' => exact .repeated (List.mem_cons_of_mem _ h) h')) (by omega)
    have h2 := read_command n own (hn n (.here (by simp))) top k t text
    refine ⟨[n] :: nss, ?_, by simp⟩
    rw [List.append_assoc]
    have := pos_of_read h2
    exact .step (h2 _) (by simp only [List.length_append]; omega) h1
  | @together top c d ns t u v g behind text begins rest ih =>
    intro k r hn hk
    simp only [List.length_append] at hk
    obtain ⟨nss, h1, rfl⟩ := ih k r (fun m hm => hn m (by
      cases hm with
      | here h => exact .here (by simp [h])
      | block h h' => exact .block (List.mem_cons_of_mem _ (List.mem_cons_of_mem _ h)) h'
      | repeated h h' => exact .repeated (List.mem_cons_of_mem _ (List.mem_cons_of_mem _ h)) h')) (by omega)
    have hd : ∀ r, dCodes false (u ++ r) = .ok d r := by
      cases d with
      | dnn i s => obtain rfl : s = false := behind; exact read_dnn date i false u text
      | d01 x y i j s => obtain rfl : s = false := behind; exact read_d01 date x y i j false u text
      | d02 x y s => obtain rfl : s = false := behind; exact read_d02 date x y false u text
      | d03 x y s => obtain rfl : s = false := behind; exact read_d03 date x y false u text
      | _ => exact behind.elim
    have h2 : ∀ r, item date top k ((t ++ u) ++ r) = .ok [.g c false, d] r := by
      intro r
      have h3 := read_together c begins (hd r) t g
      obtain ⟨b, t', hb, rfl⟩ := lead_code t g
      exact item_g top k hb (t := t' ++ u ++ r) (by simp) (by rw [List.append_assoc]; exact h3)
    refine ⟨[.g c false, d] :: nss, ?_, by simp⟩
    rw [List.append_assoc]
    have := pos_of_read h2
    exact .step (h2 _) (by simp only [List.length_append] at this ⊢; omega) h1
  | @block top i body ns t u v w opens inside closes rest ih ih' =>
    intro k r hn hk
    simp only [List.length_append] at hk
    obtain ⟨nss, h1, rfl⟩ := ih' k r (fun m hm => hn m (by
      cases hm with
      | here h => exact .here (by simp [h])
      | block h h' => exact .block (List.mem_cons_of_mem _ h) h'
      | repeated h h' => exact .repeated (List.mem_cons_of_mem _ h) h')) (by omega)
    have hs : Shape 'A' 'B' t := shape_abOpen i t opens
    have ht : 0 < t.length := by obtain ⟨b, b', t', -, -, rfl⟩ := hs; simp
    obtain ⟨k, rfl⟩ := Nat.exists_eq_succ_of_ne_zero (show k ≠ 0 by omega)
    obtain ⟨mss, h2, rfl⟩ := ih k (v ++ (w ++ r)) (fun m hm => hn m (.block List.mem_cons_self hm)) (by omega)
    have h3 : apertureBlock date (k + 1) (t ++ (u ++ (v ++ (w ++ r)))) = .ok (.ab i mss.flatten) (w ++ r) := by
      have h2' : many (bodyItem date (apertureBlock date k)) (u ++ (v ++ (w ++ r))) = .ok mss (v ++ (w ++ r)) :=
        (h2.run (stop_ab k v closes _)).many
      simp only [apertureBlock, Peg.andThen, Peg.before, Peg.ret, read_abOpen i t opens, h2', read_abClose v closes]
    refine ⟨[.ab i mss.flatten] :: nss, ?_, by simp⟩
    simp only [List.append_assoc]
    exact .step (item_ab top (k + 1) (hs.append _) h3) (by simp only [List.length_append]; omega) h1
  | @repeated x y i j body ns t u v w opens inside closes rest ih ih' =>
    intro k r hn hk
    simp only [List.length_append] at hk
    obtain ⟨nss, h1, rfl⟩ := ih' k r (fun m hm => hn m (by
      cases hm with
      | here h => exact .here (by simp [h])
      | block h h' => exact .block (List.mem_cons_of_mem _ h) h'
      | repeated h h' => exact .repeated (List.mem_cons_of_mem _ h) h')) (by omega)
    have hs : Shape 'S' 'R' t := shape_srOpen x y i j t opens
    have ht : 0 < t.length := by obtain ⟨b, b', t', -, -, rfl⟩ := hs; simp
    obtain ⟨mss, h2, rfl⟩ := ih k (v ++ (w ++ r)) (fun m hm => hn m (.repeated List.mem_cons_self hm)) (by omega)
    have h3 : stepRepeat date k (t ++ (u ++ (v ++ (w ++ r)))) = .ok (.sr x y i j mss.flatten) (w ++ r) := by
      have h2' : many (bodyItem date (apertureBlock date k)) (u ++ (v ++ (w ++ r))) = .ok mss (v ++ (w ++ r)) :=
        (h2.run (stop_sr k v closes _)).many
      simp only [stepRepeat, Peg.andThen, Peg.before, Peg.ret, read_srOpen x y i j t opens, h2', read_srClose v closes]
    refine ⟨[.sr x y i j mss.flatten] :: nss, ?_, by simp⟩
    simp only [List.append_assoc]
    exact .step (item_sr k (hs.append _) h3) (by simp only [List.length_append]; omega) h1

/-- Spellings of files are read as these files. -/
theorem parseFile_read {f : List Node} {w b : Text} (h : Spelled date true f w) (hf : f ≠ []) (hb : Blank b)
    (hn : ∀ n, Occurs n f → ¬LooksStandard n) : parseFile date (w ++ b) = .file f := by
  have hstop : item date true (w ++ b).length b = .fail := by
    have := (skips_item (date := date) true (w ++ b).length).blank hb []
    rwa [List.append_nil, item_nil] at this
  obtain ⟨nss, h1, rfl⟩ := read_spelled h (w ++ b).length b hn (by simp)
  have hb' : skip b = [] := by
    have := skip_blank hb []
    rw [List.append_nil] at this
    rw [this]; rfl
  cases nss with
  | nil => exact absurd rfl hf
  | cons a as =>
    have h2 : many1 (rootItem date (w ++ b).length) (w ++ b) = .ok (a :: as) b := (h1.run hstop).many1
    simp only [parseFile, h2, hb', if_true]

end Verif.Reading
