import Verif.Lemmas.Codes
import Verif.Props.Spans

/-!
# C70: the linter
-/

namespace Verif.Props.Linter

open Verif.Text Verif.Syntax Verif.Spec Verif.Linter
open Verif.Peg (Text)
open Verif.Spans (Info Source plainSource parseText lineAt columnAt)
open Verif.Props.Format (years)

/-! ## Reports -/

/-- The rule objects remember what the commands before say. -/
def Knows (before : List Visit) (x : Instance) : Prop :=
  x.rule = .grb001 → x.last = ((before.filter remembers).getLast?).map Visit.kind

theorem knows_other {before : List Visit} {x : Instance} {v : Visit} (h : Knows before x) (hv : v.kind ∉ triggers x.rule) :
    Knows (before ++ [v]) x := by
  intro hr
  rw [hr] at hv
  have : remembers v = false := by
    cases hk : v.kind <;> simp_all [triggers, remembers]
  rw [List.filter_append, List.filter_cons_of_neg (by simp [this])]
  simpa using h hr

theorem knows_callback (source : Text) {before : List Visit} {x : Instance} {v : Visit} (hv : v.kind ∈ triggers x.rule) :
    Knows (before ++ [v]) (nodeCallback source x v).1 ∧ (nodeCallback source x v).1.rule = x.rule := by
  cases hr : x.rule with
  | grb001 =>
    refine ⟨fun _ => ?_, by simp [nodeCallback, hr]⟩
    have : remembers v = true := by
      rw [hr] at hv
      cases hk : v.kind <;> simp_all [triggers, remembers]
    simp [nodeCallback, hr, this]
  | _ => exact ⟨fun h' => by simp [nodeCallback, hr] at h', by simp [nodeCallback, hr]⟩

theorem called_name (k : Kind) : k.name = called k := by cases k <;> rfl

theorem callback_reports (source : Text) {before : List Visit} {x : Instance} {v : Visit} {i : Info} (hi : v.info = some i) (h : Knows before x)
    (hv : v.kind ∈ triggers x.rule) :
    (nodeCallback source x v).2 = if Objects before v x.rule then [reportAt source x.rule v i] else [] := by
  cases hr : x.rule with
  | grb001 =>
    rw [hr] at hv
    simp only [nodeCallback, hr]
    have hk := h hr
    have iff : ((v.kind = .g01 ∨ v.kind = .g02 ∨ v.kind = .g03) ∧ x.last = some v.kind) ↔ Objects before v .grb001 := by
      simp only [Objects, hk, Option.map_eq_some_iff]
    by_cases ho : Objects before v .grb001
    · rw [if_pos (iff.2 ho), if_pos ho]
      simp [reportViolation, reportAt, hi, hr, titleOf, (iff.2 ho).2, message, called_name, Info.endLocation]
    · rw [if_neg (fun h => ho (iff.1 h)), if_neg ho]
  | dep001 =>
    rw [hr] at hv
    have : v.kind = .g54 := by simpa [triggers] using hv
    simp [nodeCallback, hr, reportViolation, hi, Objects, this, titleOf, reportAt, message, Info.endLocation]
  | dep002 =>
    rw [hr] at hv
    have : v.kind = .g55 := by simpa [triggers] using hv
    simp [nodeCallback, hr, reportViolation, hi, Objects, this, titleOf, reportAt, message, Info.endLocation]

theorem silent {before : List Visit} {v : Visit} {r : Rule} (hv : v.kind ∉ triggers r) : ¬ Objects before v r := by
  cases r <;> simp [triggers] at hv <;> simp [Objects, hv]

theorem trigger_reports (source : Text) (before : List Visit) (v : Visit) (i : Info) (hi : v.info = some i) :
    ∀ xs : List Instance, (∀ x ∈ xs, Knows before x) →
    (triggerListeners source xs v).2 =
      (((xs.map Instance.rule).filter fun r => decide (Objects before v r)).filterMap fun r => v.info.map (reportAt source r v)) ∧
    (triggerListeners source xs v).1.map Instance.rule = xs.map Instance.rule ∧ ∀ x ∈ (triggerListeners source xs v).1, Knows (before ++ [v]) x
  | [], _ => ⟨rfl, rfl, by simp [triggerListeners]⟩
  | x :: xs, h => by
    obtain ⟨h1, h2, h3⟩ := trigger_reports source before v i hi xs fun y hy => h y (by simp [hy])
    have hx := h x (by simp)
    by_cases ht : v.kind ∈ triggers x.rule
    · simp only [triggerListeners, if_pos ht, List.map_cons]
      obtain ⟨k1, k2⟩ := knows_callback (before := before) source ht
      rw [callback_reports source hi hx ht, h1, h2, k2]
      refine ⟨?_, rfl, ?_⟩
      · rw [List.filter_cons]
        by_cases ho : Objects before v x.rule <;> simp [ho, hi]
      · rintro y hy
        rcases List.mem_cons.1 hy with rfl | hy
        · exact k1
        · exact h3 y hy
    · simp only [triggerListeners, if_neg ht, List.map_cons, h1, h2]
      refine ⟨?_, trivial, ?_⟩
      · rw [List.filter_cons]
        simp [silent ht]
      · rintro y hy
        rcases List.mem_cons.1 hy with rfl | hy
        · exact knows_other hx ht
        · exact h3 y hy

theorem lint_reports (source : Text) : ∀ (vs before : List Visit) (xs : List Instance), (∀ v ∈ vs, v.info.isSome = true) →
    (∀ x ∈ xs, Knows before x) → lintVisits source xs vs = reports source (xs.map Instance.rule) before vs
  | [], _, _, _, _ => rfl
  | v :: vs, before, xs, hv, h => by
    obtain ⟨i, hi⟩ := Option.isSome_iff_exists.1 (hv v (by simp))
    obtain ⟨h1, h2, h3⟩ := trigger_reports source before v i hi xs h
    simp only [lintVisits, reports]
    rw [h1, lint_reports source vs (before ++ [v]) _ (fun w hw => hv w (by simp [hw])) h3, h2]

/-! ## Positions of visited nodes -/

theorem visitsAll_eq (ns : List Node) (is : List Info) (h : FitsAll ns (is.take ns.length)) :
    (visitsAll ns is).2 = is.drop ns.length := by
  induction ns generalizing is with
  | nil => rfl
  | cons n ns ih =>
    cases is with
    | nil => simp [FitsAll] at h
    | cons i is =>
      simp only [List.length_cons, List.take_succ_cons, FitsAll, List.cons.injEq] at h
      obtain ⟨_, _, ⟨rfl, rfl⟩, -, h2⟩ := h
      simp only [visitsAll, List.tail_cons, List.length_cons, List.drop_succ_cons]
      exact ih is h2

/-- The positions of a block: the first command, the body, the last command. -/
theorem block_visits {ns : List Node} {o c : Info} {body : List Info} (h : FitsAll ns body) :
    visitsAll ns ((o :: (body ++ [c])).drop 1) = ((visitsAll ns body).1, [c]) := by
  have hl : body.length = ns.length := ((Spans.fitsAll_iff _ _).1 h).length_eq.symm
  have e : ∀ (ns : List Node) (a b : List Info), a.length = ns.length → (visitsAll ns (a ++ b)).1 = (visitsAll ns a).1 := by
    intro ns
    induction ns with
    | nil => intro a b _; rfl
    | cons n ns ih =>
      intro a b hab
      cases a with
      | nil => simp at hab
      | cons x a =>
        simp only [visitsAll, List.cons_append, List.head?_cons, List.tail_cons]
        rw [ih a b (by simpa using hab)]
  simp only [List.drop_one, List.tail_cons]
  apply Prod.ext
  · exact e ns body [c] hl
  · rw [visitsAll_eq ns (body ++ [c]) (by rw [← hl, List.take_left]; exact h), ← hl, List.drop_left]

/-- A visited node lies in `source[a:b]`. -/
def Within (source : Text) (a b : Nat) (v : Visit) : Prop :=
  ∃ i, v.info = some i ∧ a ≤ i.location ∧ 0 < i.length ∧ i.endLocation ≤ b ∧
    (∀ c : GCode, v.kind = kindOf (.g c true) → v.kind ≠ .other → BeginsWithCode c (source.drop i.location))

/-- Where a visited node begins. -/
def place (v : Visit) : Nat := (v.info.map Info.location).getD 0

theorem Within.mono {source : Text} {a b a' b' : Nat} {v : Visit} (h : Within source a b v) (ha : a' ≤ a) (hb : b ≤ b') :
    Within source a' b' v := by
  obtain ⟨i, h1, h2, h3, h4, h5⟩ := h
  exact ⟨i, h1, ha.trans h2, h3, h4.trans hb, h5⟩

theorem Within.place {source : Text} {a b : Nat} {v : Visit} (h : Within source a b v) : a ≤ place v ∧ place v ≤ b := by
  obtain ⟨i, h1, h2, h3, h4, h5⟩ := h
  simp only [Linter.place, h1, Option.map_some, Option.getD_some]
  unfold Info.endLocation at h4
  omega

theorem kind_code {c d : GCode} {b b' : Bool} (h : kindOf (.g c b) = kindOf (.g d b')) (hn : kindOf (.g c b) ≠ .other) : c = d := by
  cases c <;> cases d <;> simp_all [kindOf]

/-- What is known about the visits of a node at a position. -/
def Good (source : Text) (a b : Nat) (vs : List Visit) : Prop :=
  (∀ v ∈ vs, Within source a b v) ∧ vs.Pairwise fun v w => place v ≤ place w

theorem good_leaf {source : Text} {n : Node} {i : Info} {a b : Nat} (ha : a ≤ i.location) (hl : 0 < i.length)
    (hb : i.endLocation ≤ b) (hc : CodesAt source n i) : Good source a b [⟨kindOf n, some i⟩] := by
  refine ⟨?_, by simp⟩
  simp only [List.mem_singleton, forall_eq]
  refine ⟨i, rfl, ha, hl, hb, fun c hk hn => ?_⟩
  simp only at hk hn
  cases n
  case g d b =>
    rw [kind_code hk hn] at hc
    exact hc
  all_goals exact absurd rfl hn

theorem good_other {source : Text} {k : Kind} {i : Info} {a b : Nat} (hk : k = .other ∨ k = .abClose) (ha : a ≤ i.location) (hl : 0 < i.length)
    (hb : i.endLocation ≤ b) : Within source a b ⟨k, some i⟩ := by
  refine ⟨i, rfl, ha, hl, hb, fun c h hn => ?_⟩
  simp only at h hn
  rcases hk with rfl | rfl
  · exact absurd rfl hn
  · cases c <;> simp [kindOf] at h

theorem good_append {source : Text} {a m b : Nat} {vs ws : List Visit} (h : Good source a m vs) (h' : Good source m b ws) (ha : a ≤ m) (hb : m ≤ b) :
    Good source a b (vs ++ ws) := by
  refine ⟨fun v hv => ?_, List.pairwise_append.2 ⟨h.2, h'.2, fun v hv w hw => ?_⟩⟩
  · rcases List.mem_append.1 hv with hv | hv
    · exact (h.1 v hv).mono (Nat.le_refl _) hb
    · exact (h'.1 v hv).mono ha (Nat.le_refl _)
  · exact (h.1 v hv).place.2.trans (h'.1 w hw).place.1

/-- One node and the rest. -/
theorem tiles_cons {source : Text} {a b : Nat} {i : Info} {is : List Info} (h : Tiles source a (i :: is) b) :
    ∃ stop, a ≤ i.location ∧ 0 < i.length ∧ i.endLocation ≤ stop ∧ stop ≤ b ∧ Tiles source stop is b ∧
      (i.parts = [] ∨ Tiles source i.location i.parts stop) := by
  cases h with
  | leaf before blanks text after =>
    refine ⟨_, before, text.2.1, text.2.2.1, ?_, after, .inl rfl⟩
    exact after.range.1
  | block before blanks text inside after =>
    refine ⟨_, before, text.2.1, text.2.2.1, ?_, after, .inr inside⟩
    exact after.range.1

theorem tiles_split {source : Text} {a b : Nat} {is js : List Info} (h : Tiles source a (is ++ js) b) :
    ∃ m, Tiles source a is m ∧ Tiles source m js b := by
  generalize hk : is ++ js = ks at h
  induction h generalizing is with
  | nil a =>
    simp only [List.append_eq_nil_iff] at hk
    obtain ⟨rfl, rfl⟩ := hk
    exact ⟨a, .nil a, .nil a⟩
  | leaf before blanks text after ih =>
    cases is with
    | nil => exact ⟨_, .nil _, by rw [List.nil_append] at hk; rw [hk]; exact .leaf before blanks text after⟩
    | cons x is =>
      rw [List.cons_append, List.cons.injEq] at hk
      obtain ⟨rfl, hk⟩ := hk
      obtain ⟨m, h1, h2⟩ := ih hk
      exact ⟨m, .leaf before blanks text h1, h2⟩
  | block before blanks text inside after _ ih =>
    cases is with
    | nil => exact ⟨_, .nil _, by rw [List.nil_append] at hk; rw [hk]; exact .block before blanks text inside after⟩
    | cons x is =>
      rw [List.cons_append, List.cons.injEq] at hk
      obtain ⟨rfl, hk⟩ := hk
      obtain ⟨m, h1, h2⟩ := ih hk
      exact ⟨m, .block before blanks text inside h1, h2⟩

theorem codesIn_take {source : Text} : ∀ {ns : List Node} {is js : List Info}, is.length = ns.length → CodesIn source ns (is ++ js) →
    CodesIn source ns is
  | [], _, _, _, _ => trivial
  | n :: ns, [], _, h, _ => by simp at h
  | n :: ns, i :: is, js, h, hc => by
    simp only [CodesIn, List.cons_append, List.cons.injEq] at hc
    obtain ⟨_, _, ⟨rfl, rfl⟩, c1, c2⟩ := hc
    exact ⟨i, is, rfl, c1, codesIn_take (by simpa using h) c2⟩

theorem codesIn_body {source : Text} {ns : List Node} {i o c : Info} {body : List Info} (hp : i.parts = o :: (body ++ [c]))
    (hb : FitsAll ns body) (h : CodesIn source ns (i.parts.drop 1)) : CodesIn source ns body := by
  rw [hp, List.drop_one, List.tail_cons] at h
  exact codesIn_take ((Spans.fitsAll_iff _ _).1 hb).length_eq.symm h

/-- A block, given its body. -/
theorem good_block {source : Text} {ns : List Node} {i o c : Info} {body : List Info} {a b : Nat} {k : Kind} (hk : k = .other ∨ k = .abClose)
    (ha : a ≤ i.location) (hl : 0 < i.length) (hb : i.endLocation ≤ b)
    (ht : i.parts = [] ∨ Tiles source i.location i.parts b) (hp : i.parts = o :: (body ++ [c]))
    (hbody : ∀ x y, Tiles source x body y → Good source x y (visitsAll ns body).1) :
    Good source a b ([⟨.other, some i⟩, ⟨.other, some o⟩] ++ (visitsAll ns body).1 ++ [⟨k, some c⟩]) := by
  rcases ht with ht | ht
  · rw [ht] at hp; cases hp
  rw [hp] at ht
  obtain ⟨m, o1, o2, o3, o4, t, -⟩ := tiles_cons ht
  obtain ⟨m', t1, t2⟩ := tiles_split t
  obtain ⟨e, c1, c2, c3, c4, -, -⟩ := tiles_cons t2
  have hbb := hbody _ _ t1
  have hle := t1.range.1
  have w1 : Within source a b ⟨.other, some i⟩ := good_other (.inl rfl) ha hl hb
  have w2 : Within source i.location b ⟨.other, some o⟩ := good_other (.inl rfl) o1 o2 (o3.trans o4)
  have w3 : Within source m' b ⟨k, some c⟩ := good_other hk c1 c2 (c3.trans c4)
  have hb2 : Good source o.location b ((visitsAll ns body).1 ++ [⟨k, some c⟩]) := by
    refine good_append (m := m') ⟨fun v hv => (hbb.1 v hv).mono ?_ (Nat.le_refl _), hbb.2⟩ ⟨by simpa using w3, by simp⟩ ?_ ?_
    all_goals (unfold Info.endLocation at o3 c3; omega)
  refine ⟨?_, ?_⟩
  · simp only [List.cons_append, List.nil_append, List.mem_cons]
    rintro v (rfl | rfl | hv)
    · exact w1
    · exact w2.mono ha (Nat.le_refl _)
    · exact (hb2.1 v hv).mono (ha.trans o1) (Nat.le_refl _)
  · simp only [List.cons_append, List.nil_append, List.pairwise_cons, List.mem_cons]
    refine ⟨?_, fun v hv => (hb2.1 v hv).place.1, hb2.2⟩
    rintro v (rfl | hv)
    · exact o1
    · exact o1.trans (hb2.1 v hv).place.1

mutual
theorem good_visits (source : Text) (n : Node) (i : Info) (a b : Nat) (ha : a ≤ i.location) (hl : 0 < i.length) (hb : i.endLocation ≤ b)
    (ht : i.parts = [] ∨ Tiles source i.location i.parts b) (hf : Fits n i) (hc : CodesAt source n i) : Good source a b (visits n (some i)) := by
  cases n
  case ab d ns =>
    simp only [Fits] at hf
    obtain ⟨o, body, c, hp, ho, hcp, hbody⟩ := hf
    have hc' : CodesIn source ns (i.parts.drop 1) := by simpa only [CodesAt] using hc
    simp only [visits, Option.map_some, Option.getD_some, hp, block_visits hbody, List.head?_cons]
    exact good_block (.inr rfl) ha hl hb ht hp fun x y t => good_visitsAll source ns body x y t hbody (codesIn_body hp hbody hc')
  case sr x y ii j ns =>
    simp only [Fits] at hf
    obtain ⟨o, body, c, hp, ho, hcp, hbody⟩ := hf
    have hc' : CodesIn source ns (i.parts.drop 1) := by simpa only [CodesAt] using hc
    simp only [visits, Option.map_some, Option.getD_some, hp, block_visits hbody, List.head?_cons]
    exact good_block (.inl rfl) ha hl hb ht hp fun x y t => good_visitsAll source ns body x y t hbody (codesIn_body hp hbody hc')
  all_goals simp only [visits]; exact good_leaf ha hl hb hc
theorem good_visitsAll (source : Text) (ns : List Node) (is : List Info) (a b : Nat) (ht : Tiles source a is b) (hf : FitsAll ns is)
    (hc : CodesIn source ns is) : Good source a b (visitsAll ns is).1 := by
  cases ns with
  | nil => exact ⟨by simp [visitsAll], by simp [visitsAll]⟩
  | cons n ns =>
    simp only [FitsAll] at hf
    obtain ⟨i, js, rfl, f1, f2⟩ := hf
    simp only [CodesIn, List.cons.injEq] at hc
    obtain ⟨_, _, ⟨rfl, rfl⟩, c1, c2⟩ := hc
    obtain ⟨stop, h1, h2, h3, h4, t, hp⟩ := tiles_cons ht
    simp only [visitsAll, List.head?_cons, List.tail_cons]
    have hstop : a ≤ stop := by unfold Info.endLocation at h3; omega
    exact good_append (good_visits source n i a stop h1 h2 h3 hp f1 c1) (good_visitsAll source ns js stop b t f2 c2) hstop h4
end

/-- The commands of a file in the order in which the linter visits them. -/
abbrev commandsOf (src : Source Node) : List Visit := (visitsAll src.nodes src.infos).1

theorem good_file {rd : Text → Option Text} {strict : Bool} {s : Text} {src : Source Node} (h : plainSource rd strict s = some src) :
    Good s 0 s.length (commandsOf src) := by
  obtain ⟨stop, ht, -⟩ := Spans.c68_positions rd strict s src h
  have g := good_visitsAll s src.nodes src.infos 0 stop ht ((Spans.fitsAll_iff _ _).2 (Spans.c68_shape rd strict s src h)) (Spans.codes_plain h)
  exact ⟨fun v hv => (g.1 v hv).mono (Nat.le_refl _) ht.stop_le, g.2⟩

/-! ## C70 -/

/-- **C70**: for every text and every selection of rules, the linter reports exactly what the rules object to, command by
command in the order of the text, and for each command in the order of the rules. -/
theorem c70_reports (rd : Text → Option Text) (strict : Bool) (s : Text) (src : Source Node) (h : plainSource rd strict s = some src)
    (rules : List Rule) : lintWith rules s src.nodes src.infos = reports s rules [] (commandsOf src) := by
  have := lint_reports s (commandsOf src) [] (rules.map fun r => { rule := r })
    (fun v hv => by obtain ⟨i, hi, -⟩ := (good_file h).1 v hv; simp [hi]) (by simp [Knows])
  rw [List.map_map, show Instance.rule ∘ (fun r => { rule := r : Instance }) = id from rfl, List.map_id] at this
  exact this

theorem mem_reports {source : Text} {rules : List Rule} {x : Violation} : ∀ {vs before : List Visit}, x ∈ reports source rules before vs →
    ∃ pre v post i, vs = pre ++ v :: post ∧ x.rule ∈ rules ∧ Objects (before ++ pre) v x.rule ∧ v.info = some i ∧ x = reportAt source x.rule v i
  | [], _, h => by simp [reports] at h
  | v :: vs, before, h => by
    simp only [reports, List.mem_append, List.mem_filterMap, List.mem_filter, decide_eq_true_eq, Option.map_eq_some_iff] at h
    rcases h with ⟨r, ⟨h1, h2⟩, i, h3, rfl⟩ | h
    · exact ⟨[], v, vs, i, rfl, h1, by rw [List.append_nil]; exact h2, h3, rfl⟩
    · obtain ⟨pre, w, post, i, rfl, h1, h2, h3, h4⟩ := mem_reports h
      exact ⟨v :: pre, w, post, i, rfl, h1, by simpa using h2, h3, h4⟩

/-- What a rule is about, in the text. -/
def About (t : Text) : Rule → Prop
  | .dep001 => BeginsWithCode .g54 t
  | .dep002 => BeginsWithCode .g55 t
  | .grb001 => BeginsWithCode .g01 t ∨ BeginsWithCode .g02 t ∨ BeginsWithCode .g03 t

/-- **C70**: every report points to its command: at the reported offset the text has the `G` code that the rule is about,
line and column are those of the offset, and the range is not empty and inside the text. -/
theorem c70_where (rd : Text → Option Text) (strict : Bool) (s : Text) (src : Source Node) (h : plainSource rd strict s = some src)
    (rules : List Rule) (x : Violation) (hx : x ∈ lintWith rules s src.nodes src.infos) :
    x.rule ∈ rules ∧ About (s.drop x.start) x.rule ∧
      (∃ line character, CursorAt s line character x.start ∧ x.line = line + 1 ∧ x.column = character + 1) ∧
      x.start < x.stop ∧ x.stop ≤ s.length := by
  rw [c70_reports rd strict s src h] at hx
  obtain ⟨pre, v, post, i, hvs, hr, ho, hi, hxe⟩ := mem_reports hx
  obtain ⟨j, hj, -, j2, j3, j4⟩ := (good_file h).1 v (by rw [hvs]; simp)
  rw [hi, Option.some.injEq] at hj
  subst hj
  have e1 : x.start = i.location := by rw [hxe]; rfl
  have e2 : x.stop = i.endLocation := by rw [hxe]; rfl
  have e3 : x.line = lineAt s x.start := by rw [hxe]; rfl
  have e4 : x.column = columnAt s x.start := by rw [hxe]; rfl
  have e5 : x.start < x.stop := by rw [e1, e2]; unfold Info.endLocation; omega
  have e6 : x.stop ≤ s.length := by rw [e2]; exact j3
  have hcur : CursorAt s (x.line - 1) (x.column - 1) x.start := by
    rw [Spans.c68_line_column]
    refine ⟨?_, ?_, by omega⟩
    · rw [e3]; unfold lineAt; omega
    · rw [e4]; unfold columnAt; omega
  refine ⟨hr, ?_, ⟨_, _, hcur, ?_, ?_⟩, e5, e6⟩
  rotate_left
  · rw [e3]; unfold lineAt; omega
  · rw [e4]; unfold columnAt; omega
  rw [e1]
  cases hk : x.rule <;> rw [hk] at ho <;> simp only [Objects] at ho
  · exact j4 .g54 ho (by simp [ho])
  · exact j4 .g55 ho (by simp [ho])
  · rcases ho.1 with ho | ho | ho
    · exact .inl (j4 .g01 ho (by simp [ho]))
    · exact .inr (.inl (j4 .g02 ho (by simp [ho])))
    · exact .inr (.inr (j4 .g03 ho (by simp [ho])))

theorem reports_order {source : Text} {rules : List Rule} : ∀ {vs before : List Visit}, vs.Pairwise (fun v w => place v ≤ place w) →
    (reports source rules before vs).Pairwise fun x y => x.start ≤ y.start
  | [], _, _ => by simp [reports]
  | v :: vs, before, h => by
    rw [List.pairwise_cons] at h
    simp only [reports, List.pairwise_append]
    refine ⟨?_, reports_order h.2, ?_⟩
    · cases hi : v.info with
      | none => simp
      | some i =>
        simp only [Option.map_some, List.filterMap_eq_map', List.pairwise_map]
        exact List.pairwise_of_forall fun _ _ => Nat.le_refl _
    · intro x hx y hy
      simp only [List.mem_filterMap, Option.map_eq_some_iff] at hx
      obtain ⟨r, -, i, hi, rfl⟩ := hx
      obtain ⟨pre, w, post, j, rfl, -, -, hj, hy'⟩ := mem_reports hy
      have := h.1 w (by simp)
      rw [hy']
      simpa [place, hi, hj, reportAt] using this

/-- **C70**: reports come in the order of the text. -/
theorem c70_order (rd : Text → Option Text) (strict : Bool) (s : Text) (src : Source Node) (h : plainSource rd strict s = some src)
    (rules : List Rule) : (lintWith rules s src.nodes src.infos).Pairwise fun x y => x.start ≤ y.start := by
  rw [c70_reports rd strict s src h]
  exact reports_order (good_file h).2

theorem reports_select {source : Text} {rules : List Rule} (hn : rules.Nodup) {r : Rule} (hr : r ∈ rules) : ∀ (vs before : List Visit),
    (reports source rules before vs).filter (fun x => x.rule == r) = reports source [r] before vs
  | [], _ => rfl
  | v :: vs, before => by
    simp only [reports, List.filter_append, reports_select hn hr vs]
    congr 1
    cases hi : v.info with
    | none => simp
    | some i =>
      simp only [Option.map_some, List.filterMap_eq_map', List.filter_map, List.filter_filter]
      have e : ((fun x : Violation => x.rule == r) ∘ fun r => reportAt source r v i) = fun q => q == r := rfl
      rw [e]
      have : (rules.filter fun a => (a == r) && decide (Objects before v a)) = [r].filter fun a => decide (Objects before v a) := by
        rw [← List.filter_filter, List.filter_comm, List.filter_beq, List.count_eq_one_of_mem hn hr]
        rfl
      rw [this]

/-- **C70**: rules do not influence each other: of the reports with several rules, those of one rule are the reports with
that rule alone. -/
theorem c70_select (rd : Text → Option Text) (strict : Bool) (s : Text) (src : Source Node) (h : plainSource rd strict s = some src)
    (rules : List Rule) (hn : rules.Nodup) (r : Rule) (hr : r ∈ rules) :
    (lintWith rules s src.nodes src.infos).filter (fun x => x.rule == r) = lintWith [r] s src.nodes src.infos := by
  rw [c70_reports rd strict s src h, c70_reports rd strict s src h]
  exact reports_select hn hr _ _

theorem reports_length {source : Text} (rules : List Rule) : ∀ (vs before : List Visit), (∀ v ∈ vs, v.info.isSome = true) →
    (reports source rules before vs).length = (rules.map fun r => (reports source [r] before vs).length).sum
  | [], _, _ => by simp [reports]
  | v :: vs, before, h => by
    obtain ⟨i, hi⟩ := Option.isSome_iff_exists.1 (h v (by simp))
    have ih := reports_length (source := source) rules vs (before ++ [v]) fun w hw => h w (by simp [hw])
    simp only [reports, List.length_append, hi, Option.map_some, List.filterMap_eq_map', List.length_map] at ih ⊢
    rw [ih, List.sum_map_add]
    congr 1
    clear ih h
    induction rules with
    | nil => rfl
    | cons r rules ih =>
      rw [List.map_cons, List.sum_cons, ← ih, ← List.length_append, ← List.filter_append, List.singleton_append]

/-- **C70**: every listed rule counts: the number of reports is the sum over the list, so a rule that is listed twice
reports everything twice. -/
theorem c70_each (rd : Text → Option Text) (strict : Bool) (s : Text) (src : Source Node) (h : plainSource rd strict s = some src)
    (rules : List Rule) :
    (lintWith rules s src.nodes src.infos).length = (rules.map fun r => (lintWith [r] s src.nodes src.infos).length).sum := by
  simp only [c70_reports rd strict s src h]
  exact reports_length rules _ _ fun v hv => by obtain ⟨i, hi, -⟩ := (good_file h).1 v hv; simp [hi]

/-! ### Selection of rules by name -/

theorem lookup_some {id : Text} {r : Rule} : lookup id = some r ↔ id = r.id := by
  constructor
  · intro h
    have := List.find?_some h
    simpa using (beq_iff_eq.1 this).symm
  · rintro rfl
    cases r <;> rfl

theorem mapM_lookup {ids : List Text} {rs : List Rule} : ids.mapM lookup = some rs ↔ ids = rs.map Rule.id := by
  induction ids generalizing rs with
  | nil => simp [List.mapM_nil, eq_comm]
  | cons id ids ih =>
    simp only [List.mapM_cons, Option.bind_eq_bind, Option.bind_eq_some_iff, Option.pure_def, Option.some.injEq]
    constructor
    · rintro ⟨r, h1, rs', h2, rfl⟩
      rw [lookup_some.1 h1, ih.1 h2, List.map_cons]
    · cases rs with
      | nil => simp
      | cons r rs =>
        rw [List.map_cons, List.cons.injEq]
        rintro ⟨h1, h2⟩
        exact ⟨r, lookup_some.2 h1, rs, ih.2 h2, rfl⟩

/-- **C70**: no rules or an empty list means all rules; a list of names means those rules, in that order; with an unknown
name nothing is checked. -/
theorem c70_names (s : Text) (src : Source Node) :
    lint none s src = some (lintWith [.dep001, .dep002, .grb001] s src.nodes src.infos) ∧
    lint (some []) s src = some (lintWith [.dep001, .dep002, .grb001] s src.nodes src.infos) ∧
    (∀ rs : List Rule, rs ≠ [] → lint (some (rs.map Rule.id)) s src = some (lintWith rs s src.nodes src.infos)) ∧
    ∀ ids : List Text, (∃ id ∈ ids, ∀ r : Rule, id ≠ r.id) → lint (some ids) s src = none := by
  refine ⟨rfl, rfl, fun rs hr => ?_, fun ids hid => ?_⟩
  · cases rs with
    | nil => exact absurd rfl hr
    | cons r rs =>
      have := mapM_lookup.2 (rfl : (r :: rs).map Rule.id = _)
      simp only [List.map_cons] at this ⊢
      simp only [lint, this, Option.map_some]
  · obtain ⟨id, h1, h2⟩ := hid
    cases ids with
    | nil => simp at h1
    | cons a ids =>
      simp only [lint, Option.map_eq_none_iff]
      cases hm : (a :: ids).mapM lookup with
      | none => rfl
      | some rs =>
        rw [mapM_lookup.1 hm, List.mem_map] at h1
        obtain ⟨r, -, hr⟩ := h1
        exact absurd hr.symm (h2 r)

theorem split_word {w : Text} (h : ',' ∉ w) (t : Text) : splitCommas (w ++ ',' :: t) = w :: splitCommas t := by
  induction w with
  | nil => simp [splitCommas]
  | cons c w ih =>
    simp only [List.mem_cons, not_or] at h
    simp only [List.cons_append, splitCommas, if_neg (Ne.symm h.1), ih h.2]

theorem split_last {w : Text} (h : ',' ∉ w) : splitCommas w = [w] := by
  induction w with
  | nil => rfl
  | cons c w ih =>
    simp only [List.mem_cons, not_or] at h
    simp only [splitCommas, if_neg (Ne.symm h.1), ih h.2]

/-- Names separated by commas. -/
def commaList : List Text → Text
  | [] => []
  | [w] => w
  | w :: v :: ws => w ++ ',' :: commaList (v :: ws)

theorem split_comma (ws : List Text) (hn : ws ≠ []) (h : ∀ w ∈ ws, ',' ∉ w) : splitCommas (commaList ws) = ws := by
  induction ws with
  | nil => exact absurd rfl hn
  | cons w ws ih =>
    cases ws with
    | nil => exact split_last (h w (by simp))
    | cons v ws =>
      rw [commaList, split_word (h w (by simp)), ih (by simp) fun x hx => h x (by simp [hx])]

/-- **C70** on the command line: `-r` options with names separated by commas mean all those rules in that order. -/
theorem c70_command_line (s : Text) (src : Source Node) (options : List (List Rule)) (h : ∀ o ∈ options, o ≠ []) :
    lintCommand (options.map fun rs => commaList (rs.map Rule.id)) s src =
      some (lintWith (if options = [] then [.dep001, .dep002, .grb001] else options.flatten) s src.nodes src.infos) := by
  have e : (options.map fun rs => commaList (rs.map Rule.id)).flatMap splitCommas = options.flatten.map Rule.id := by
    induction options with
    | nil => rfl
    | cons o os ih =>
      rw [List.map_cons, List.flatMap_cons, ih fun x hx => h x (by simp [hx]), split_comma _ (by simpa using h o (by simp)),
        List.flatten_cons, List.map_append]
      intro w hw
      obtain ⟨r, -, rfl⟩ := List.mem_map.1 hw
      cases r <;> simp [Rule.id]
  unfold lintCommand
  rw [e]
  cases options with
  | nil => exact (c70_names s src).2.1
  | cons o os =>
    rw [if_neg (by simp)]
    refine (c70_names s src).2.2.1 _ ?_
    have := h o (by simp)
    simp [this]

/-! ### After formatting -/

mutual
/-- The kinds of visited nodes. -/
def kinds : Node → List Kind
  | .ab _ ns => [.other, .other] ++ kindsAll ns ++ [.abClose]
  | .sr _ _ _ _ ns => [.other, .other] ++ kindsAll ns ++ [.other]
  | n => [kindOf n]
/-- `kinds` of several nodes. -/
def kindsAll : List Node → List Kind
  | [] => []
  | n :: ns => kinds n ++ kindsAll ns
end

mutual
theorem visits_kinds (n : Node) (i : Option Info) : (visits n i).map Visit.kind = kinds n := by
  cases n
  case ab d ns => simp only [visits, kinds, List.map_append, List.map_cons, List.map_nil, visitsAll_kinds ns]
  case sr x y ii j ns => simp only [visits, kinds, List.map_append, List.map_cons, List.map_nil, visitsAll_kinds ns]
  all_goals simp only [visits, kinds, List.map_cons, List.map_nil]
theorem visitsAll_kinds (ns : List Node) (is : List Info) : (visitsAll ns is).1.map Visit.kind = kindsAll ns := by
  cases ns with
  | nil => rfl
  | cons n ns => simp only [visitsAll, kindsAll, List.map_append, visits_kinds n, visitsAll_kinds ns]
end

mutual
theorem count_inside (k : Kind) (hk : k = .g54 ∨ k = .g55) (n : Node) : (kinds n).count k = ((inside n).map kindOf).count k := by
  cases n
  case ab d ns =>
    have := count_insideAll k hk ns
    rcases hk with rfl | rfl <;> simp [kinds, inside, kindOf, this, List.count_cons, List.count_append]
  case sr x y ii j ns =>
    have := count_insideAll k hk ns
    rcases hk with rfl | rfl <;> simp [kinds, inside, kindOf, this, List.count_cons, List.count_append]
  all_goals simp only [kinds, inside, List.map_cons, List.map_nil]
theorem count_insideAll (k : Kind) (hk : k = .g54 ∨ k = .g55) (ns : List Node) : (kindsAll ns).count k = ((insideAll ns).map kindOf).count k := by
  cases ns with
  | nil => rfl
  | cons n ns =>
    simp only [kindsAll, insideAll, List.map_append, List.count_append, count_inside k hk n, count_insideAll k hk ns]
end

theorem count_reports {source : Text} (r : Rule) (k : Kind) (h : ∀ before v, Objects before v r ↔ v.kind = k) : ∀ (vs before : List Visit),
    (∀ v ∈ vs, v.info.isSome = true) → (reports source [r] before vs).length = (vs.map Visit.kind).count k
  | [], _, _ => rfl
  | v :: vs, before, hv => by
    obtain ⟨i, hi⟩ := Option.isSome_iff_exists.1 (hv v (by simp))
    have ih := count_reports (source := source) r k h vs (before ++ [v]) fun w hw => hv w (by simp [hw])
    simp only [reports, List.length_append, hi, Option.map_some, List.filterMap_eq_map', List.length_map, ih, List.map_cons, List.count_cons]
    by_cases hk : v.kind = k
    · simp [List.filter_cons, (h before v).2 hk, hk]; omega
    · simp [List.filter_cons, mt (h before v).1 hk, hk]

/-- **C70**: no deprecated command is overlooked: the rules report as often as there are `G54` or `G55` commands in the
file, in blocks at any depth and on the line of a `D` code included. -/
theorem c70_every (rd : Text → Option Text) (strict : Bool) (s : Text) (src : Source Node) (h : plainSource rd strict s = some src) :
    (lintWith [.dep001] s src.nodes src.infos).length =
      (insideAll src.nodes).countP (fun n => match n with | .g .g54 _ => true | _ => false) ∧
    (lintWith [.dep002] s src.nodes src.infos).length =
      (insideAll src.nodes).countP (fun n => match n with | .g .g55 _ => true | _ => false) := by
  have hi : ∀ v ∈ commandsOf src, v.info.isSome = true := fun v hv => by obtain ⟨i, hi, -⟩ := (good_file h).1 v hv; simp [hi]
  have key (k : Kind) (hk : k = .g54 ∨ k = .g55) : ((commandsOf src).map Visit.kind).count k = (insideAll src.nodes).countP fun n => kindOf n == k := by
    rw [visitsAll_kinds, count_insideAll k hk, List.count, List.countP_map]
    rfl
  rw [c70_reports rd strict s src h, c70_reports rd strict s src h, count_reports .dep001 .g54 (fun _ _ => Iff.rfl) _ _ hi,
    count_reports .dep002 .g55 (fun _ _ => Iff.rfl) _ _ hi, key _ (.inl rfl), key _ (.inr rfl)]
  constructor
  all_goals
    congr 1
    funext n
    cases n <;> try rfl
    rename_i c b
    cases c <;> rfl

theorem kindsAll_append (a b : List Node) : kindsAll (a ++ b) = kindsAll a ++ kindsAll b := by
  induction a with
  | nil => rfl
  | cons n a ih => simp only [List.cons_append, kindsAll, ih, List.append_assoc]

mutual
theorem kinds_bare (n : Node) : kindsAll (bare (fun _ => false) n) = kinds n := by
  cases n
  case ab d ns => simp only [bare, kindsAll, kinds, List.append_nil, kindsAll_bare ns]
  case sr x y ii j ns => simp only [bare, kindsAll, kinds, List.append_nil, kindsAll_bare ns]
  case g c b => cases c <;> simp [bare, kindsAll, kinds, kindOf]
  all_goals simp [bare, withFlag, kindsAll, kinds, kindOf]
theorem kindsAll_bare (ns : List Node) : kindsAll (bareAll (fun _ => false) ns) = kindsAll ns := by
  cases ns with
  | nil => rfl
  | cons n ns => rw [bareAll, kindsAll_append, kinds_bare n, kindsAll_bare ns, kindsAll]
end

mutual
theorem dropped_kinds (D : GCode → Bool) (c : GCode) (hD : D c = true) (hc : kindOf (.g c true) = .g54 ∨ kindOf (.g c true) = .g55) (n : Node) :
    kindOf (.g c true) ∉ kindsAll (bare D n) := by
  cases n
  case ab d ns =>
    simp only [bare, kindsAll, kinds, List.append_nil, List.mem_append, List.mem_cons, List.not_mem_nil, or_false, not_or, or_self]
    refine ⟨⟨?_, dropped_kindsAll D c hD hc ns⟩, ?_⟩ <;> rcases hc with hc | hc <;> simp [hc]
  case sr x y ii j ns =>
    simp only [bare, kindsAll, kinds, List.append_nil, List.mem_append, List.mem_cons, List.not_mem_nil, or_false, not_or, or_self]
    refine ⟨⟨?_, dropped_kindsAll D c hD hc ns⟩, ?_⟩ <;> rcases hc with hc | hc <;> simp [hc]
  case g d b =>
    simp only [bare]
    split
    · simp [kindsAll]
    · rename_i hd
      simp only [kindsAll, kinds, List.append_nil, List.mem_singleton]
      intro hk
      have := kind_code hk (by rcases hc with hc | hc <;> simp [hc])
      subst this
      exact hd hD
  all_goals
    rcases hc with hc | hc <;> rw [hc] <;> simp [bare, withFlag, kindsAll, kinds, kindOf]
theorem dropped_kindsAll (D : GCode → Bool) (c : GCode) (hD : D c = true) (hc : kindOf (.g c true) = .g54 ∨ kindOf (.g c true) = .g55) (ns : List Node) :
    kindOf (.g c true) ∉ kindsAll (bareAll D ns) := by
  cases ns with
  | nil => simp [bareAll, kindsAll]
  | cons n ns =>
    rw [bareAll, kindsAll_append, List.mem_append, not_or]
    exact ⟨dropped_kinds D c hD hc n, dropped_kindsAll D c hD hc ns⟩
end

theorem plain_of_file {rd : Text → Option Text} {s : Text} {f : List Node} (h : Grammar.parseFile rd s = .file f) :
    Grammar.parsePlain rd true s = .file f := by
  unfold Grammar.parseFile at h
  unfold Grammar.parsePlain Grammar.parseAll
  cases hm : Peg.many1 (Grammar.rootItem rd s.length) s with
  | ok ns r =>
    rw [hm] at h
    simp only at h ⊢
    split at h
    · rename_i hr
      simp only [Grammar.Outcome.file.injEq] at h
      simp [hr, h]
    · cases h
  | fail => rw [hm] at h; cases h
  | raised => rw [hm] at h; cases h

/-- **C70** with **C59** (partial: as C59). What the rules DEP001 and DEP002 object to is what the formatter removes on
request: the text formatted with the options to remove `G54` and `G55` has no such reports, with any rules.  (The parser keeps the text
with its tabs expanded.) -/
theorem c70_removed_partial (rd : Text → Option Text) (hrd : StableDates rd) (u : Formatter.Options) (hl : BlankLayout u)
    (hu : u.removeG54 = true ∧ u.removeG55 = true) (s : Text) (f : List Node) (h : Grammar.parseCode rd s = .file f)
    (hn : ∀ n ∈ insideAll f, Printable u n) (hne : bareAll (Removed u) f ≠ []) :
    ∃ src, parseText rd true (Formatter.formats (Formatter.build u) f) = some src ∧
      ∀ rules, ∀ x ∈ lintWith rules (Grammar.expandTabs (Formatter.formats (Formatter.build u) f)) src.nodes src.infos,
        x.rule = .grb001 := by
  obtain ⟨f', h1, h2⟩ := Format.c59_same_commands_partial rd hrd u hl s f h hn hne
  obtain ⟨src, h3, rfl⟩ := (Spans.c68_same_nodes rd true _ f').1 (plain_of_file h1)
  refine ⟨src, h3, fun rules x hx => ?_⟩
  rw [c70_reports rd true _ src h3] at hx
  obtain ⟨pre, v, post, i, hvs, -, ho, -, -⟩ := mem_reports hx
  have hk : v.kind ∈ kindsAll src.nodes := by
    have := visitsAll_kinds src.nodes src.infos
    unfold commandsOf at hvs
    rw [← this, hvs]
    simp
  rw [← kindsAll_bare, h2] at hk
  cases hr : x.rule with
  | grb001 => rfl
  | dep001 =>
    rw [hr] at ho
    have e : v.kind = .g54 := ho
    rw [e] at hk
    exact absurd hk (dropped_kindsAll (Removed u) .g54 (by simp [Removed, hu]) (.inl rfl) f)
  | dep002 =>
    rw [hr] at ho
    have e : v.kind = .g55 := ho
    rw [e] at hk
    exact absurd hk (dropped_kindsAll (Removed u) .g55 (by simp [Removed, hu]) (.inr rfl) f)

/-- A file with deprecated and redundant commands, also in a block. -/
def sample : Text := t!"G01*\nG54D10*\n%ABD11*%\nG01X1D01*G055D03*\n%AB*%\nG1*\nG01*\nM02*\n"

/-- Rule, offsets, line and column. -/
def short (v : Violation) : Rule × Nat × Nat × Nat × Nat := (v.rule, v.start, v.stop, v.line, v.column)

example : (plainSource years true sample).map (fun src => (lintWith registry sample src.nodes src.infos).map short) =
    some [(.dep001, 5, 8, 2, 1), (.grb001, 22, 25, 4, 1), (.dep002, 31, 35, 4, 10), (.grb001, 50, 54, 7, 1)] := by decide +kernel

example : (plainSource years true sample).bind (fun src => (lintCommand [t!"DEP002,GRB001", t!"DEP002"] sample src).map fun vs => vs.map short) =
    some [(.grb001, 22, 25, 4, 1), (.dep002, 31, 35, 4, 10), (.dep002, 31, 35, 4, 10), (.grb001, 50, 54, 7, 1)] := by decide +kernel

end Verif.Props.Linter
