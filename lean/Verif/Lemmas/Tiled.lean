import Verif.Spec.Spans
import Verif.Lemmas.Spans

/-!
# Nodes cover the text they are read from
-/

namespace Verif.Spans

open Verif.Text Verif.Fmt Verif.Syntax Verif.Spec
open Verif.Math hiding P
open Verif.Peg (Text Res P firstOf Skips)
open Verif.Grammar (gDigits gOrder toLiteral floatText Entry Suf)

/-! ## Elements that do not look at leading blanks -/

theorem skips_tok {α : Type} {p : P α} (h : Skips p) : Skips (tok p) := by
  intro s; simp only [tok, skip_skip]; rw [← h s]

theorem skips_andThen {α β : Type} {p : L α} (h : Skips p) (f : α → L β) : Skips (p ~~> f) := by
  intro s; simp only [andThen]; rw [← h s]

theorem skips_before {α β : Type} {p : L α} (h : Skips p) (q : L β) : Skips (p ≫≫ q) := skips_andThen h _

theorem skips_mapL {α β : Type} {p : L α} (h : Skips p) (f : α → β) : Skips (mapL f p) := skips_andThen h _

theorem skips_node {α : Type} {p : L α} (h : Skips p) : Skips (node p) := by
  intro s; simp only [node, skip_skip]; rw [← h s]

theorem skips_optThen {α β : Type} {p : L α} (h : Skips p) {f : Option α → L β} (h' : Skips (f none)) :
    Skips (opt p ~~> f) := by
  intro s
  simp only [andThen, opt]
  rw [← h s]
  cases p s with
  | ok o r => rfl
  | fail => simp only [← h' s]
  | raised => rfl

theorem andThen_assocL {α β γ : Type} (p : L α) (f : α → L β) (g : β → L γ) :
    ((p ~~> f) ~~> g) = (p ~~> fun a => f a ~~> g) := by
  funext s
  simp only [andThen]
  cases p s with
  | ok o r =>
    simp only
    cases f o.val r with
    | ok o' r' =>
      simp only
      cases g o'.val r' with
      | ok o'' r'' => simp [Nat.add_assoc]
      | fail => rfl
      | raised => rfl
    | fail => rfl
    | raised => rfl
  | fail => rfl
  | raised => rfl

theorem ret_andThen {α β : Type} (a : α) (f : α → L β) : (ret a ~~> f) = f a := by
  funext s
  simp only [andThen, ret]
  cases f a s <;> simp

theorem skips_lit (w : Text) : Skips (lit w) := skips_tok (Peg.skips_lit w)

theorem skips_extended {α : Type} (p : L α) : Skips (extended p) := skips_node (skips_before (skips_lit _) _)

theorem skips_codeRe (c : Char) (w : Text) : Skips (codeRe c w) := skips_tok (Peg.skips_codeRe c w)

/-! ## Widths -/

theorem inked_append (a b : Text) : inked (a ++ b) = inked a + inked b := by simp [inked]

theorem inked_le (t : Text) : inked t ≤ t.length := List.length_filter_le _ _

theorem skip_split (s : Text) : ∃ b, s = b ++ skip s ∧ inked b = 0 ∧ ∀ c ∈ b, isBlank c = true := by
  refine ⟨s.takeWhile isBlank, (List.takeWhile_append_dropWhile).symm, ?_, fun c hc => ?_⟩
  · simp only [inked, List.length_eq_zero_iff, List.filter_eq_nil_iff]
    intro c hc
    have : isSpace c = true := List.mem_takeWhile_imp hc
    simp [this]
  · exact List.mem_takeWhile_imp hc

/-- The width of what was read from `c`. -/
def Width (c : Text) (w : Nat) : Prop := inked c ≤ w ∧ w ≤ c.length

theorem Width.append {a b : Text} {v w : Nat} (h : Width a v) (h' : Width b w) : Width (a ++ b) (v + w) := by
  obtain ⟨h1, h2⟩ := h; obtain ⟨h3, h4⟩ := h'
  exact ⟨by rw [inked_append]; omega, by rw [List.length_append]; omega⟩

theorem Width.nil : Width [] 0 := ⟨Nat.le_refl _, Nat.le_refl _⟩

/-- What is read is a prefix of the text, with the right width. -/
def Wd {α : Type} (p : L α) : Prop := ∀ s o r, p s = .ok o r → ∃ c, s = c ++ r ∧ Width c o.width

/-- An element without nodes. -/
def Inner {α : Type} (p : L α) : Prop := ∀ s o r, p s = .ok o r → o.spans = [] ∧ ∃ c, s = c ++ r ∧ Width c o.width

theorem Inner.wd {α : Type} {p : L α} (h : Inner p) : Wd p := fun s o r e => (h s o r e).2

theorem andThen_ok {α β : Type} {p : L α} {f : α → L β} {s r : Text} {o : Out β} (h : (p ~~> f) s = .ok o r) :
    ∃ a t b, p s = .ok a t ∧ f a.val t = .ok b r ∧ o = ⟨b.val, a.width + b.width, a.spans ++ b.spans⟩ := by
  simp only [andThen] at h
  cases hp : p s with
  | ok a t =>
    simp only [hp] at h
    cases hq : f a.val t with
    | ok b r' =>
      simp only [hq, Res.ok.injEq] at h
      obtain ⟨rfl, rfl⟩ := h
      exact ⟨a, t, b, rfl, hq, rfl⟩
    | fail => rw [hq] at h; cases h
    | raised => rw [hq] at h; cases h
  | fail => rw [hp] at h; cases h
  | raised => rw [hp] at h; cases h

theorem Inner.andThen {α β : Type} {p : L α} {f : α → L β} (h : Inner p) (hf : ∀ a, Inner (f a)) : Inner (p ~~> f) := by
  intro s o r e
  obtain ⟨a, t, b, h1, h2, rfl⟩ := andThen_ok e
  obtain ⟨e1, c, rfl, w1⟩ := h _ _ _ h1
  obtain ⟨e2, d, rfl, w2⟩ := hf _ _ _ _ h2
  exact ⟨by simp [e1, e2], c ++ d, by simp, w1.append w2⟩

theorem Inner.ret {α : Type} (a : α) : Inner (ret a) := by
  intro s o r e
  simp only [Spans.ret, Res.ok.injEq] at e
  obtain ⟨rfl, rfl⟩ := e
  exact ⟨rfl, [], rfl, .nil⟩

theorem Inner.raise {α : Type} : Inner (raise : L α) := by intro s o r e; simp [Spans.raise] at e
theorem Inner.failing {α : Type} : Inner (failing : L α) := by intro s o r e; simp [Spans.failing] at e

theorem Inner.before {α β : Type} {p : L α} {q : L β} (h : Inner p) (hq : Inner q) : Inner (p ≫≫ q) := h.andThen fun _ => hq

theorem Inner.mapL {α β : Type} {p : L α} {f : α → β} (h : Inner p) : Inner (mapL f p) := h.andThen fun _ => .ret _

theorem Inner.opt {α : Type} {p : L α} (h : Inner p) : Inner (opt p) := by
  intro s o r e
  simp only [Spans.opt] at e
  cases hp : p s with
  | ok a t =>
    simp only [hp, Res.ok.injEq] at e
    obtain ⟨rfl, rfl⟩ := e
    exact h _ _ _ hp
  | fail =>
    simp only [hp, Res.ok.injEq] at e
    obtain ⟨rfl, rfl⟩ := e
    exact ⟨rfl, [], rfl, .nil⟩
  | raised => simp [hp] at e

theorem Inner.manyFuel {α : Type} {p : L α} (h : Inner p) : ∀ n, Inner (manyFuel p n)
  | 0 => .ret _
  | n + 1 => by
    intro s o r e
    simp only [Spans.manyFuel] at e
    cases hp : p s with
    | ok a t =>
      simp only [hp] at e
      cases hq : Spans.manyFuel p n t with
      | ok b r' =>
        simp only [hq, Res.ok.injEq] at e
        obtain ⟨rfl, rfl⟩ := e
        obtain ⟨e1, c, rfl, w1⟩ := h _ _ _ hp
        obtain ⟨e2, d, rfl, w2⟩ := h.manyFuel n _ _ _ hq
        exact ⟨by simp [e1, e2], c ++ d, by simp, w1.append w2⟩
      | fail => simp [hq] at e
      | raised => simp [hq] at e
    | fail =>
      simp only [hp, Res.ok.injEq] at e
      obtain ⟨rfl, rfl⟩ := e
      exact ⟨rfl, [], rfl, .nil⟩
    | raised => simp [hp] at e

theorem Inner.many {α : Type} {p : L α} (h : Inner p) : Inner (many p) := fun s => h.manyFuel s.length s

theorem Inner.many1 {α : Type} {p : L α} (h : Inner p) : Inner (many1 p) := h.andThen fun _ => h.many.andThen fun _ => .ret _

theorem Inner.ite {α : Type} {c : Prop} [Decidable c] {p q : L α} (h : Inner p) (hq : Inner q) : Inner (if c then p else q) := by
  split <;> assumption

theorem Inner.convert {α β : Type} {f : α → Option β} {p : L α} (h : Inner p) : Inner (convert f p) :=
  h.andThen fun a => by cases f a <;> first | exact .ret _ | exact .raise

theorem tok_ok {α : Type} {p : P α} {s r : Text} {o : Out α} (h : tok p s = .ok o r) :
    p s = .ok o.val r ∧ o = ⟨o.val, (skip s).length - r.length, []⟩ := by
  simp only [tok] at h
  cases hp : p s with
  | ok a t => simp only [hp, Res.ok.injEq] at h; obtain ⟨rfl, rfl⟩ := h; exact ⟨rfl, rfl⟩
  | fail => simp [hp] at h
  | raised => simp [hp] at h

theorem Inner.tok {α : Type} {p : P α} (h : Suf p) (hs : Skips p) : Inner (tok p) := by
  intro s o r e
  obtain ⟨e1, e2⟩ := tok_ok e
  rw [hs] at e1
  obtain ⟨c, hc⟩ := h _ _ _ e1
  obtain ⟨b, hb, hb0, -⟩ := skip_split s
  rw [e2]
  refine ⟨rfl, b ++ c, by rw [List.append_assoc, hc]; exact hb, ?_, ?_⟩
  · rw [inked_append, hb0, ← hc]
    have := inked_le c
    simp; omega
  · rw [← hc]; simp

theorem skips_oneOf (w : List Text) : Skips (Peg.oneOf w) := by intro s; simp [Peg.oneOf, skip_skip]
theorem skips_nameRe (f : Char → Bool) : Skips (Peg.nameRe f) := by intro s; simp [Peg.nameRe, skip_skip]
theorem skips_field : Skips Peg.field := by intro s; simp [Peg.field, skip_skip]
theorem skips_double : Skips Peg.double := by intro s; simp [Peg.double, skip_skip]
theorem skips_doubleText : Skips Peg.doubleText := by intro s; simp [Peg.doubleText, skip_skip]
theorem skips_integer : Skips Peg.integer := by intro s; simp [Peg.integer, skip_skip]
theorem skips_digit : Skips Peg.digit := by intro s; simp [Peg.digit, skip_skip]
theorem skips_variable : Skips Grammar.variable_ := by intro s; simp [Grammar.variable_, skip_skip]

theorem inner_lit (w : Text) : Inner (lit w) := .tok (Grammar.suf_lit w) (Peg.skips_lit w)
theorem inner_clit (w : Text) : Inner (clit w) := .tok (Grammar.suf_clit w) (Peg.skips_clit w)
theorem inner_oneOf (w : List Text) : Inner (oneOf w) := .tok (Grammar.suf_oneOf w) (skips_oneOf w)
theorem inner_name : Inner name := .tok (Grammar.suf_nameRe _) (skips_nameRe _)
theorem inner_userName : Inner userName := .tok (Grammar.suf_nameRe _) (skips_nameRe _)
theorem inner_field : Inner field := .tok Grammar.suf_field skips_field
theorem inner_double : Inner double := .tok Grammar.suf_double skips_double
theorem inner_doubleText : Inner doubleText := .tok Grammar.suf_doubleText skips_doubleText
theorem inner_integer : Inner integer := .tok Grammar.suf_integer skips_integer
theorem inner_apertureId : Inner apertureId := .tok Grammar.suf_apertureId Peg.skips_apertureId
theorem inner_codeRe (c : Char) (w : Text) : Inner (codeRe c w) := .tok (Grammar.suf_codeRe c w) (Peg.skips_codeRe c w)
theorem inner_mZeros : Inner mZeros := .tok Grammar.suf_mZeros Peg.skips_mZeros
theorem inner_digit : Inner digit := .tok Grammar.suf_digit skips_digit
theorem inner_variable : Inner variable_ := .tok Grammar.suf_variable skips_variable
theorem inner_asterisk : Inner asterisk := inner_lit _
theorem inner_comma : Inner comma := inner_lit _

theorem inner_followedBy (cs : List Char) : Inner (followedBy cs) := by
  intro s o r e
  simp only [followedBy, Peg.followedBy] at e
  split at e <;> try cases e
  rename_i h
  split at h <;> try cases h
  split at h <;> cases h
  exact ⟨rfl, [], rfl, .nil⟩

theorem inner_string : Inner string := by
  intro s o r e
  simp only [string] at e
  cases hp : Peg.string s with
  | ok a t =>
    simp only [hp, Res.ok.injEq] at e
    obtain ⟨rfl, rfl⟩ := e
    obtain ⟨c, rfl⟩ := Grammar.suf_string _ _ _ hp
    exact ⟨rfl, c, rfl, by simpa using inked_le c, by simp⟩
  | fail => simp [hp] at e
  | raised => simp [hp] at e

theorem inner_expr : Inner expr := by
  intro s o r e
  simp only [expr] at e
  cases hp : Peg.expr s with
  | ok a t =>
    simp only [hp, Res.ok.injEq] at e
    obtain ⟨rfl, rfl⟩ := e
    obtain ⟨c, rfl⟩ := Grammar.suf_expr _ _ _ hp
    have : (c ++ t).take ((c ++ t).length - t.length) = c := by simp
    refine ⟨rfl, c, rfl, ?_⟩
    simp only [this]
    exact ⟨Nat.le_refl _, inked_le c⟩
  | fail => simp [hp] at e
  | raised => simp [hp] at e

theorem Inner.cs {α : Type} {p : L α} (h : Inner p) : Inner (cs p) := inner_comma.before h
theorem inner_fields : Inner fields := inner_field.cs.many
theorem inner_coordinate (c : Char) : Inner (coordinate c) := (inner_clit _).before inner_integer

/-- Elements built from elements without nodes. -/
macro "inners" : tactic => `(tactic| repeat' (with_reducible first
  | exact inner_lit _ | exact inner_clit _ | exact inner_comma | exact inner_asterisk | exact inner_fields | exact inner_expr
  | exact inner_oneOf _ | exact inner_followedBy _ | exact inner_string | exact inner_name | exact inner_userName
  | exact inner_field | exact inner_double | exact inner_doubleText | exact inner_integer | exact inner_apertureId
  | exact inner_codeRe _ _ | exact inner_mZeros | exact inner_digit | exact inner_variable | exact Inner.ret _
  | exact Inner.raise | refine Inner.before ?_ ?_ | refine Inner.andThen ?_ (fun _ => ?_) | refine Inner.mapL ?_
  | refine Inner.opt ?_ | refine Inner.cs ?_ | refine Inner.many ?_ | refine Inner.many1 ?_ | refine Inner.convert ?_
  | refine Inner.ite ?_ ?_ | exact inner_coordinate _ | assumption))

/-! ## Nodes -/

/-- The nodes cover the text from `s` to the rest `r`. -/
inductive Tiled : Text → List Span → Text → Prop
  | nil (s : Text) : Tiled s [] s
  | leaf {s c e r : Text} {n : Nat} {rest : List Span} (h : skip s = c ++ e) (w : Width c n) (pos : 0 < n)
    (after : Tiled e rest r) : Tiled s (.mk (skip s).length n [] :: rest) r
  | block {s c e r : Text} {n : Nat} {parts rest : List Span} (h : skip s = c ++ e) (w : Width c n) (pos : 0 < n)
    (inside : Tiled (skip s) parts e) (after : Tiled e rest r) : Tiled s (.mk (skip s).length n parts :: rest) r

theorem Tiled.append {s m r : Text} {a b : List Span} (h : Tiled s a m) (h' : Tiled m b r) : Tiled s (a ++ b) r := by
  induction h with
  | nil => exact h'
  | leaf h w pos _ ih => exact .leaf h w pos (ih h')
  | block h w pos inside _ _ ih => exact .block h w pos inside (ih h')

/-- An element whose nodes cover what it reads. -/
def Cover {α : Type} (p : L α) : Prop :=
  ∀ s o r, p s = .ok o r → Tiled s o.spans r ∧ ∃ c, s = c ++ r ∧ Width c o.width

/-- An element that makes one node without parts. -/
def One {α : Type} (p : L α) : Prop :=
  ∀ s o r, p s = .ok o r → o.spans = [.mk (skip s).length o.width []] ∧ 0 < o.width ∧
    ∃ c, skip s = c ++ r ∧ Width c o.width

/-- An element that makes one node with parts. -/
def Block {α : Type} (p : L α) : Prop :=
  ∀ s o r, p s = .ok o r → ∃ parts, o.spans = [.mk (skip s).length o.width parts] ∧ 0 < o.width ∧
    (∃ c, skip s = c ++ r ∧ Width c o.width) ∧ Tiled (skip s) parts r

/-- An element that reads nothing and makes no node. -/
def Quiet {α : Type} (p : L α) : Prop := ∀ s o r, p s = .ok o r → o.spans = [] ∧ o.width = 0 ∧ r = s

theorem Quiet.ret {α : Type} (a : α) : Quiet (ret a) := by
  intro s o r e
  simp only [Spans.ret, Res.ok.injEq] at e
  obtain ⟨rfl, rfl⟩ := e
  exact ⟨rfl, rfl, rfl⟩

theorem Quiet.raise {α : Type} : Quiet (raise : L α) := by intro s o r e; simp [Spans.raise] at e

theorem Quiet.ite {α : Type} {c : Prop} [Decidable c] {p q : L α} (h : Quiet p) (hq : Quiet q) : Quiet (if c then p else q) := by
  split <;> assumption

theorem skip_width {s c r : Text} {w : Nat} (h : skip s = c ++ r) (hw : Width c w) : ∃ c, s = c ++ r ∧ Width c w := by
  obtain ⟨b, hb, h0, -⟩ := skip_split s
  refine ⟨b ++ c, by rw [List.append_assoc, ← h]; exact hb, ?_, ?_⟩
  · rw [inked_append, h0]; simpa using hw.1
  · have := hw.2; simp; omega

theorem One.cover {α : Type} {p : L α} (h : One p) : Cover p := by
  intro s o r e
  obtain ⟨h1, h2, c, h3, h4⟩ := h s o r e
  rw [h1]
  exact ⟨.leaf h3 h4 h2 (.nil _), skip_width h3 h4⟩

theorem Block.cover {α : Type} {p : L α} (h : Block p) : Cover p := by
  intro s o r e
  obtain ⟨ps, h1, h2, ⟨c, h3, h4⟩, h5⟩ := h s o r e
  rw [h1]
  exact ⟨.block h3 h4 h2 h5 (.nil _), skip_width h3 h4⟩

theorem Cover.andThen {α β : Type} {p : L α} {f : α → L β} (h : Cover p) (hf : ∀ a, Cover (f a)) : Cover (p ~~> f) := by
  intro s o r e
  obtain ⟨a, t, b, h1, h2, rfl⟩ := andThen_ok e
  obtain ⟨t1, c, rfl, w1⟩ := h _ _ _ h1
  obtain ⟨t2, d, rfl, w2⟩ := hf _ _ _ _ h2
  exact ⟨t1.append t2, c ++ d, by simp, w1.append w2⟩

theorem Cover.before {α β : Type} {p : L α} {q : L β} (h : Cover p) (hq : Cover q) : Cover (p ≫≫ q) := h.andThen fun _ => hq

theorem Quiet.cover {α : Type} {p : L α} (h : Quiet p) : Cover p := by
  intro s o r e
  obtain ⟨h1, h2, rfl⟩ := h s o r e
  rw [h1, h2]
  exact ⟨.nil _, [], rfl, .nil⟩

theorem Cover.ret {α : Type} (a : α) : Cover (ret a) := (Quiet.ret a).cover
theorem Cover.failing {α : Type} : Cover (failing : L α) := by intro s o r e; simp [Spans.failing] at e
theorem Cover.mapL {α β : Type} {p : L α} {f : α → β} (h : Cover p) : Cover (mapL f p) := h.andThen fun _ => .ret _

theorem manyFuel_ok {α : Type} {p : L α} {n : Nat} {s r : Text} {o : Out (List α)} (e : Spans.manyFuel p (n + 1) s = .ok o r) :
    (p s = .fail ∧ o = ⟨[], 0, []⟩ ∧ r = s) ∨
    ∃ a t b, p s = .ok a t ∧ Spans.manyFuel p n t = .ok b r ∧ o = ⟨a.val :: b.val, a.width + b.width, a.spans ++ b.spans⟩ := by
  simp only [Spans.manyFuel] at e
  cases hp : p s with
  | ok a t =>
    simp only [hp] at e
    cases hq : Spans.manyFuel p n t with
    | ok b r' =>
      simp only [hq, Res.ok.injEq] at e
      obtain ⟨rfl, rfl⟩ := e
      exact .inr ⟨a, t, b, rfl, hq, rfl⟩
    | fail => simp [hq] at e
    | raised => simp [hq] at e
  | fail =>
    simp only [hp, Res.ok.injEq] at e
    obtain ⟨rfl, rfl⟩ := e
    exact .inl ⟨rfl, rfl, rfl⟩
  | raised => simp [hp] at e

theorem Cover.manyFuel {α : Type} {p : L α} (h : Cover p) : ∀ n, Cover (manyFuel p n)
  | 0 => .ret _
  | n + 1 => by
    intro s o r e
    rcases manyFuel_ok e with ⟨-, rfl, rfl⟩ | ⟨a, t, b, h1, h2, rfl⟩
    · exact ⟨.nil _, [], rfl, .nil⟩
    · obtain ⟨t1, c, rfl, w1⟩ := h _ _ _ h1
      obtain ⟨t2, d, rfl, w2⟩ := h.manyFuel n _ _ _ h2
      exact ⟨t1.append t2, c ++ d, by simp, w1.append w2⟩

theorem Cover.many {α : Type} {p : L α} (h : Cover p) : Cover (many p) := fun s => h.manyFuel s.length s

theorem Cover.many1 {α : Type} {p : L α} (h : Cover p) : Cover (many1 p) := h.andThen fun _ => h.many.andThen fun _ => .ret _

/-- A property of the results of an element. -/
def Each {α : Type} (Q : Text → Out α → Text → Prop) (p : L α) : Prop := ∀ s o r, p s = .ok o r → Q s o r

theorem Each.firstOf {α : Type} {Q : Text → Out α → Text → Prop} : ∀ {ps : List (L α)}, (∀ p ∈ ps, Each Q p) → Each Q (firstOf ps)
  | [], _ => by intro s o r e; simp [Peg.firstOf] at e
  | p :: ps, h => by
    intro s o r e
    simp only [Peg.firstOf, Peg.orElse] at e
    cases hp : p s with
    | ok a t =>
      simp only [hp, Res.ok.injEq] at e
      obtain ⟨rfl, rfl⟩ := e
      exact h p (by simp) _ _ _ hp
    | fail => rw [hp] at e; exact Each.firstOf (ps := ps) (fun q hq => h q (by simp [hq])) _ _ _ e
    | raised => simp [hp] at e

theorem Cover.firstOf {α : Type} {ps : List (L α)} (h : ∀ p ∈ ps, Cover p) : Cover (firstOf ps) := Each.firstOf h
theorem One.firstOf {α : Type} {ps : List (L α)} (h : ∀ p ∈ ps, One p) : One (firstOf ps) := Each.firstOf h

theorem One.andThen {α β : Type} {p : L α} {f : α → L β} (h : One p) (hf : ∀ a, Quiet (f a)) : One (p ~~> f) := by
  intro s o r e
  obtain ⟨a, t, b, h1, h2, rfl⟩ := andThen_ok e
  obtain ⟨e1, e2, c, h3, h4⟩ := h _ _ _ h1
  obtain ⟨e3, e4, rfl⟩ := hf _ _ _ _ h2
  simp only [e1, e3, e4, List.append_nil, Nat.add_zero, true_and]
  exact ⟨e2, c, h3, h4⟩

theorem One.mapL {α β : Type} {p : L α} {f : α → β} (h : One p) : One (mapL f p) := h.andThen fun _ => .ret _

theorem One.convert {α β : Type} {f : α → Option β} {p : L α} (h : One p) : One (convert f p) :=
  h.andThen fun a => by cases f a <;> first | exact .ret _ | exact .raise

theorem node_ok {α : Type} {p : L α} {s r : Text} {o : Out α} (h : node p s = .ok o r) :
    ∃ a, p s = .ok a r ∧ o = ⟨a.val, a.width, [.mk (skip s).length a.width a.spans]⟩ := by
  simp only [node] at h
  cases hp : p s with
  | ok a t => simp only [hp, Res.ok.injEq] at h; obtain ⟨rfl, rfl⟩ := h; exact ⟨a, rfl, rfl⟩
  | fail => simp [hp] at h
  | raised => simp [hp] at h

/-- Something is read. -/
def Pos {α : Type} (p : L α) : Prop := ∀ s o r, p s = .ok o r → 0 < o.width

theorem One.node {α : Type} {p : L α} (h : Inner p) (hs : Skips p) (hp : Pos p) : One (node p) := by
  intro s o r e
  obtain ⟨a, h1, rfl⟩ := node_ok e
  have h2 := hp _ _ _ h1
  rw [hs] at h1
  obtain ⟨e1, c, hc, w⟩ := h _ _ _ h1
  exact ⟨by rw [e1], h2, c, hc, w⟩

theorem Block.node {α : Type} {p : L α} (h : Cover p) (hs : Skips p) (hp : Pos p) : Block (node p) := by
  intro s o r e
  obtain ⟨a, h1, rfl⟩ := node_ok e
  have h2 := hp _ _ _ h1
  rw [hs] at h1
  obtain ⟨t, c, hc, w⟩ := h _ _ _ h1
  exact ⟨_, rfl, h2, ⟨c, hc, w⟩, t⟩

theorem Pos.left {α β : Type} {p : L α} {f : α → L β} (h : Pos p) : Pos (p ~~> f) := by
  intro s o r e
  obtain ⟨a, t, b, h1, h2, rfl⟩ := andThen_ok e
  have := h _ _ _ h1
  simp only; omega

theorem Pos.right {α β : Type} {p : L α} {f : α → L β} (h : ∀ a, Pos (f a)) : Pos (p ~~> f) := by
  intro s o r e
  obtain ⟨a, t, b, h1, h2, rfl⟩ := andThen_ok e
  have := h _ _ _ _ h2
  simp only; omega

theorem One.pos {α : Type} {p : L α} (h : One p) : Pos p := fun s o r e => (h s o r e).2.1

theorem pos_lit {w : Text} (hw : w ≠ []) : Pos (lit w) := by
  intro s o r e
  obtain ⟨e1, e2⟩ := tok_ok e
  rw [Peg.skips_lit] at e1
  have := (Grammar.eats_lit hw _ _ _ e1).2
  rw [e2]; simp only; omega

theorem pos_asterisk : Pos asterisk := pos_lit (by simp)

theorem pos_codeRe (c : Char) (w : Text) : Pos (codeRe c w) := by
  intro s o r e
  obtain ⟨e1, e2⟩ := tok_ok e
  simp only [Peg.codeRe] at e1
  split at e1
  · next a t h =>
    split_ifs at e1
    split at e1
    · next r' h' =>
      simp only [Res.ok.injEq] at e1
      obtain ⟨-, rfl⟩ := e1
      have h1 := (Grammar.strip_suffix h').1.length_le
      have h2 : (lstrip0 t).length ≤ t.length := (List.dropWhile_suffix _).length_le
      rw [e2, h]; simp only [List.length_cons]; omega
    · cases e1
  · cases e1

theorem One.command {α : Type} {p : L α} (h : Inner p) (hs : Skips (p ~~> fun a => asterisk ≫≫ ret a)) : One (command p) :=
  .node (h.andThen fun _ => inner_asterisk.before (.ret _)) hs (.right fun _ => pos_asterisk.left)

theorem One.extended {α : Type} {p : L α} (h : Inner p) : One (extended p) :=
  .node ((inner_lit _).before (h.andThen fun _ => inner_asterisk.before ((inner_lit _).before (.ret _))))
    (skips_before (skips_lit _) _) (Pos.left (pos_lit (by simp)))

theorem skips_asterisk : Skips asterisk := skips_lit _

theorem One.codes {α β : Type} {p : L α} {q : L β} (h : Inner p) (hs : Skips p) (hq : Inner q) : One (Spans.command (p ≫≫ q)) :=
  .command (h.before hq) (skips_andThen (skips_before hs _) _)

theorem skips_coordinate (c : Char) : Skips (coordinate c) := skips_before (skips_tok (Peg.skips_clit _)) _

theorem one_dCodes (b : Bool) : One (dCodes b) := by
  apply One.firstOf
  simp only [List.mem_cons, List.not_mem_nil, or_false, forall_eq_or_imp, forall_eq]
  refine ⟨?_, ?_, ?_, ?_⟩
  · exact .command (by inners) (skips_andThen (skips_mapL (skips_tok Peg.skips_apertureId) _) _)
  · refine .command (by inners) ?_
    simp only [andThen_assocL, before, ret_andThen]
    exact skips_optThen (skips_coordinate _) (skips_optThen (skips_coordinate _) (skips_optThen (skips_coordinate _)
      (skips_optThen (skips_coordinate _) (skips_optThen (skips_codeRe _ _) (skips_andThen skips_asterisk _)))))
  · refine .command (by inners) ?_
    simp only [andThen_assocL, before]
    exact skips_optThen (skips_coordinate _) (skips_optThen (skips_coordinate _) (skips_andThen (skips_codeRe _ _) _))
  · refine .command (by inners) ?_
    simp only [andThen_assocL, before]
    exact skips_optThen (skips_coordinate _) (skips_optThen (skips_coordinate _) (skips_andThen (skips_codeRe _ _) _))

theorem one_gCode (c : GCode) : One (node (codeRe 'G' (gDigits c) ≫≫ followedBy ['D', 'X', 'Y', 'I', 'J'])) :=
  .node (by inners) (skips_before (skips_codeRe _ _) _) (pos_codeRe _ _).left

theorem one_g04 : One g04 := .codes (inner_codeRe _ _) (skips_codeRe _ _) (by inners)

theorem one_gStandalone (c : GCode) : One (gStandalone c) := .codes (inner_codeRe _ _) (skips_codeRe _ _) (by inners)

theorem one_load : One load := by
  apply One.firstOf
  simp only [List.mem_cons, List.not_mem_nil, or_false, forall_eq_or_imp, forall_eq]
  refine ⟨?_, ?_, ?_, ?_, ?_⟩ <;> exact .extended (by inners)

theorem one_mCodes : One mCodes := by
  apply One.firstOf
  simp only [List.mem_cons, List.not_mem_nil, or_false, forall_eq_or_imp, forall_eq]
  exact ⟨.codes (inner_codeRe _ _) (skips_codeRe _ _) (by inners), .codes (inner_codeRe _ _) (skips_codeRe _ _) (by inners),
    .codes inner_mZeros (skips_tok Peg.skips_mZeros) (by inners)⟩

theorem inner_boolean : Inner boolean := by unfold boolean; inners

theorem one_properties : One properties := by
  have := inner_boolean
  apply One.firstOf
  simp only [List.mem_cons, List.not_mem_nil, or_false, forall_eq_or_imp, forall_eq]
  refine ⟨.extended (by inners), .extended (by inners), .extended (by inners), ?_, .extended (by inners),
    .extended (by inners), .extended (by inners), .extended (by inners), .extended (by inners)⟩
  exact (One.extended (by inners)).andThen fun _ => .ite (.ret _) .raise

theorem inner_xDouble : Inner xDouble := by unfold xDouble; inners

theorem one_addAperture : One addAperture := by
  have := inner_xDouble
  apply One.firstOf
  simp only [List.mem_cons, List.not_mem_nil, or_false, forall_eq_or_imp, forall_eq]
  refine ⟨.extended (by inners), .extended (by inners), .extended (by inners), ?_, .extended (by inners)⟩
  exact (One.extended (by inners)).andThen fun _ => .ite (.ret _) .raise

theorem one_ta : One ta := by
  apply One.firstOf
  simp only [List.mem_cons, List.not_mem_nil, or_false, forall_eq_or_imp, forall_eq]
  refine ⟨?_, ?_, ?_, ?_⟩ <;> exact .extended (by inners)

theorem inner_upTo3 : Inner upTo3 := by unfold upTo3; inners

theorem one_tf (rd : Text → Option Text) : One (tf rd) := by
  have := inner_upTo3
  apply One.firstOf
  simp only [List.mem_cons, List.not_mem_nil, or_false, forall_eq_or_imp, forall_eq]
  refine ⟨.extended (by inners), ?_, ?_, ?_, .extended (by inners), ?_, .extended (by inners), .extended (by inners), ?_⟩
  · exact (One.extended (by inners)).andThen fun _ => .ite (.ret _) .raise
  · exact (One.extended (by inners)).andThen fun _ => .ite (.ret _) .raise
  · exact (One.extended (by inners)).andThen fun _ => .ite (.ret _) .raise
  · exact (One.extended (by inners)).convert
  · exact (One.extended (by inners)).andThen fun _ => .ite (.ret _) .raise

theorem one_to : One to_ := by
  have t (k : ToKind) : One (toText k) := .extended (by inners)
  apply One.firstOf
  simp only [List.mem_cons, List.not_mem_nil, or_false, forall_eq_or_imp, forall_eq]
  refine ⟨.extended (by inners), .extended (by inners), .extended (by inners), t _, ?_, t _, t _, t _, ?_, t _, t _, t _, ?_,
    t _, t _, .extended (by inners)⟩
  · exact (One.extended (by inners)).convert
  · exact (One.extended (by inners)).andThen fun _ => .ite (.ret _) .raise
  · exact (One.extended (by inners)).convert

theorem one_attributes (rd : Text → Option Text) : One (attributes rd) := by
  apply One.firstOf
  simp only [List.mem_cons, List.not_mem_nil, or_false, forall_eq_or_imp, forall_eq]
  exact ⟨one_ta, .extended (by inners), one_tf rd, one_to⟩

theorem one_primitive : One primitive := by
  have : Inner point := by unfold point; inners
  apply One.firstOf
  simp only [List.mem_cons, List.not_mem_nil, or_false, forall_eq_or_imp, forall_eq]
  refine ⟨.command (by inners) (skips_andThen (skips_andThen (skips_tok skips_variable) _) _), ?_, ?_, ?_, ?_, ?_, ?_, ?_, ?_,
    ?_, ?_⟩ <;> exact .codes (inner_lit _) (skips_lit _) (by inners)

/-! ## Blocks -/

theorem one_amOpen : One (node (lit ['%'] ≫≫ lit t!"AM" ≫≫ name ~~> fun n => asterisk ≫≫ ret n)) :=
  .node (by inners) (skips_before (skips_lit _) _) (pos_lit (by simp)).left

theorem one_amClose : One (node (lit ['%'])) := .node (inner_lit _) (skips_lit _) (pos_lit (by simp))

theorem one_abOpen : One abOpen := .extended (by inners)
theorem one_abClose : One abClose := .extended (by inners)
theorem one_srOpen : One srOpen := .extended (by inners)
theorem one_srClose : One srClose := .extended (by inners)

theorem block_macro : Block macro_ :=
  .node (one_amOpen.cover.andThen fun _ => one_primitive.cover.many.andThen fun _ => one_amClose.cover.before (.ret _))
    (skips_andThen (skips_node (skips_before (skips_lit _) _)) _) one_amOpen.pos.left

theorem cover_one {p : L Node} (h : Cover p) : Cover (one p) := h.mapL

theorem cover_gCodes : Cover gCodes := by
  apply Cover.firstOf
  intro p hp
  simp only [List.mem_append, List.mem_singleton, List.mem_map] at hp
  rcases hp with (rfl | ⟨c, -, rfl⟩) | ⟨c, -, rfl⟩
  · exact cover_one one_g04.cover
  · exact cover_one (one_gStandalone c).cover
  · exact (one_gCode c).cover.before (one_dCodes _).cover.mapL

theorem cover_bodyItem (rd : Text → Option Text) {ab : L Node} (h : Cover ab) : Cover (bodyItem rd ab) := by
  apply Cover.firstOf
  simp only [List.mem_cons, List.not_mem_nil, or_false, forall_eq_or_imp, forall_eq]
  exact ⟨cover_one (one_dCodes _).cover, cover_gCodes, cover_one one_load.cover, cover_one one_properties.cover,
    cover_one (one_attributes rd).cover, cover_one one_addAperture.cover, .failing, cover_one h, cover_one block_macro.cover,
    cover_one one_mCodes.cover⟩

theorem block_apertureBlock (rd : Text → Option Text) : ∀ k, Block (apertureBlock rd k)
  | 0 => by intro s o r e; simp [apertureBlock, failing] at e
  | k + 1 =>
    .node (one_abOpen.cover.andThen fun _ => (cover_bodyItem rd (block_apertureBlock rd k).cover).many.andThen fun _ =>
      one_abClose.cover.before (.ret _)) (skips_andThen (skips_extended _) _) one_abOpen.pos.left

theorem block_stepRepeat (rd : Text → Option Text) (k : Nat) : Block (stepRepeat rd k) :=
  .node (one_srOpen.cover.andThen fun _ => (cover_bodyItem rd (block_apertureBlock rd k).cover).many.andThen fun _ =>
    one_srClose.cover.before (.ret _)) (skips_andThen (skips_extended _) _) one_srOpen.pos.left

theorem cover_aperture (rd : Text → Option Text) (k : Nat) : Cover (aperture rd k) := by
  apply Cover.firstOf
  simp only [List.mem_cons, List.not_mem_nil, or_false, forall_eq_or_imp, forall_eq]
  exact ⟨(block_apertureBlock rd k).cover, block_macro.cover, (block_stepRepeat rd k).cover, one_addAperture.cover⟩

theorem cover_rootItem (rd : Text → Option Text) (k : Nat) : Cover (rootItem rd k) := by
  apply Cover.firstOf
  simp only [List.mem_cons, List.not_mem_nil, or_false, forall_eq_or_imp, forall_eq]
  exact ⟨cover_one (one_dCodes _).cover, cover_gCodes, cover_one one_load.cover, cover_one (cover_aperture rd k),
    cover_one (one_attributes rd).cover, cover_one one_properties.cover, cover_one one_mCodes.cover⟩

theorem one_invalid : One invalidToken := by
  refine .node (.tok Grammar.eats_invalid.suf Grammar.skips_invalid) (skips_tok Grammar.skips_invalid) ?_
  intro s o r e
  obtain ⟨e1, e2⟩ := tok_ok e
  rw [Grammar.skips_invalid] at e1
  have := (Grammar.eats_invalid _ _ _ e1).2
  rw [e2]; simp only; omega

theorem cover_resilientItem (rd : Text → Option Text) (k : Nat) : Cover (resilientItem rd k) := by
  apply Cover.firstOf
  simp only [List.mem_cons, List.not_mem_nil, or_false, forall_eq_or_imp, forall_eq]
  exact ⟨(cover_one (one_dCodes _).cover).mapL, cover_gCodes.mapL, (cover_one one_load.cover).mapL,
    (cover_one (cover_aperture rd k)).mapL, (cover_one (one_attributes rd).cover).mapL,
    (cover_one one_properties.cover).mapL, (cover_one one_mCodes.cover).mapL, one_invalid.cover⟩

/-! ## Positions from the beginning of the text -/

theorem tiles_of_tiled {source s r : Text} {spans : List Span} (h : Tiled s spans r) (hs : s <:+ source) :
    Tiles source (source.length - s.length) (infos source.length spans) (source.length - r.length) ∧ r <:+ s := by
  have text {s c e : Text} {n : Nat} (hs : s <:+ source) (h : skip s = c ++ e) (w : Width c n) (pos : 0 < n) :
      source.length - s.length ≤ source.length - (skip s).length ∧
      (∀ x ∈ slice source (source.length - s.length) (source.length - (skip s).length), isBlank x = true) ∧
      ReadFrom source (source.length - (skip s).length) (source.length - e.length) n := by
    obtain ⟨a, rfl⟩ := hs
    obtain ⟨b, hb, -, hb'⟩ := skip_split s
    have hl : s.length = b.length + (c.length + e.length) := by
      have := congrArg List.length hb
      rw [h] at this
      simpa using this
    have hsk : (skip s).length = c.length + e.length := by rw [h]; simp
    have hbs : a ++ s = (a ++ b) ++ (c ++ e) := by rw [← h, List.append_assoc, ← hb]
    have d1 : (a ++ s).length - s.length = a.length := by simp
    have d2 : (a ++ s).length - (skip s).length = (a ++ b).length := by simp; omega
    have d3 : (a ++ s).length - e.length = (a ++ b ++ c).length := by simp; omega
    rw [d1, d2, d3]
    have hw := w
    obtain ⟨w1, w2⟩ := w
    refine ⟨by simp, ?_, ?_, pos, ?_, ?_, ?_⟩
    · intro x hx
      apply hb'
      have : slice (a ++ s) a.length (a ++ b).length = b := by
        rw [slice, hbs, List.append_assoc, List.drop_left]; simp
      rwa [this] at hx
    · rw [hbs]; simp
    · simp only [List.length_append]; omega
    · have : slice (a ++ s) (a ++ b).length (a ++ b ++ c).length = c := by
        have hd : (a ++ b ++ c).length - (a ++ b).length = c.length := by simp only [List.length_append]; omega
        rw [slice, hbs, List.drop_left, hd, List.take_left]
      rwa [this]
    · cases c with
      | nil => simp at w2; omega
      | cons x c =>
        refine ⟨x, ?_, Grammar.skip_head (t := c ++ e) (by simpa using h)⟩
        rw [hbs, List.getElem?_append_right (Nat.le_refl _)]; simp
  induction h with
  | nil s => exact ⟨.nil _, List.suffix_refl _⟩
  | @leaf s c e r n rest h w pos after ih =>
    have he : e <:+ s := (List.suffix_append c e).trans (h ▸ Grammar.skip_suffix s)
    obtain ⟨t1, t2, t3⟩ := text hs h w pos
    obtain ⟨i1, i2⟩ := ih (he.trans hs)
    exact ⟨.leaf t1 t2 t3 i1, i2.trans he⟩
  | @block s c e r n parts rest h w pos inside after ih ih' =>
    have he : e <:+ s := (List.suffix_append c e).trans (h ▸ Grammar.skip_suffix s)
    obtain ⟨t1, t2, t3⟩ := text hs h w pos
    obtain ⟨i1, i2⟩ := ih' (he.trans hs)
    exact ⟨.block t1 t2 t3 (ih ((Grammar.skip_suffix s).trans hs)).1 i1, i2.trans he⟩

end Verif.Spans
