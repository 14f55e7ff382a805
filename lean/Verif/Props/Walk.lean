import Verif.Spec.Walk
import Verif.Model.Formatter

/-!
# C76: visitors reach every node once, in the order of the source
-/

namespace Verif.Props.Walk
open Verif.Walk Verif.Syntax Verif.Math Verif.Spec
open Verif.Grammar (Entry)

section
variable {σ ε : Type} (opens : Item → Bool) (act : Moment → σ → σ)

/-- The call runs through the moments and raises nothing. -/
def Does (a : Act σ ε) (t : List Moment) : Prop := ∀ s, a s = (played act t s, none)
/-- The call is a tour over the node. -/
def Toured (i : Item) (a : Act σ ε) : Prop := ∃ t, Tour opens i t ∧ Does act a t
/-- The call is a tour over the nodes. -/
def TouredAll (is : List Item) (a : Act σ ε) : Prop := ∃ t, Tours opens is t ∧ Does act a t

variable {opens act}

theorem played_append (t u : List Moment) (s : σ) : played act (t ++ u) s = played act u (played act t s) := by
  simp [played]

theorem does_andThen {a b : Act σ ε} {t u : List Moment} (ha : Does act a t) (hb : Does act b u) :
    Does act (andThen a b) (t ++ u) := by
  intro s
  simp only [andThen, ha s, hb _, played_append]

theorem all_nil : TouredAll opens act [] (nothing : Act σ ε) := ⟨[], .nil, fun _ => rfl⟩

theorem all_cons {i : Item} {is : List Item} {a b : Act σ ε} (ha : Toured opens act i a)
    (hb : TouredAll opens act is b) : TouredAll opens act (i :: is) (andThen a b) := by
  obtain ⟨t, ht, h1⟩ := ha
  obtain ⟨u, hu, h2⟩ := hb
  exact ⟨t ++ u, .cons i is t u ht hu, does_andThen h1 h2⟩

theorem tours_append {is js : List Item} {t u : List Moment} (h1 : Tours opens is t) (h2 : Tours opens js u) :
    Tours opens (is ++ js) (t ++ u) := by
  induction is generalizing t with
  | nil => cases h1; simpa using h2
  | cons i is ih =>
    cases h1 with
    | cons _ _ a b ha hb =>
      rw [List.append_assoc, List.cons_append]
      exact .cons _ _ _ _ ha (ih hb)

theorem all_append {is js : List Item} {a b : Act σ ε} (ha : TouredAll opens act is a)
    (hb : TouredAll opens act js b) : TouredAll opens act (is ++ js) (andThen a b) := by
  obtain ⟨t, ht, h1⟩ := ha
  obtain ⟨u, hu, h2⟩ := hb
  exact ⟨t ++ u, tours_append ht hu, does_andThen h1 h2⟩

theorem all_one {i : Item} {a : Act σ ε} (ha : Toured opens act i a) : TouredAll opens act [i] a := by
  obtain ⟨t, ht, h1⟩ := ha
  refine ⟨t, ?_, h1⟩
  simpa using Tours.cons i [] t [] ht .nil

theorem inTurn_append (as bs : List (Act σ ε)) : inTurn (as ++ bs) = andThen (inTurn as) (inTurn bs) := by
  induction as with
  | nil => funext s; simp [inTurn, andThen, nothing]
  | cons a as ih =>
    funext s
    simp only [List.cons_append, inTurn, ih, andThen]
    generalize a s = r
    obtain ⟨s, _ | e⟩ := r <;> rfl

theorem all_map {α : Type} (f : α → Item) (g : α → Act σ ε) (l : List α) (h : ∀ a, Toured opens act (f a) (g a)) :
    TouredAll opens act (l.map f) (inTurn (l.map g)) := by
  induction l with
  | nil => exact all_nil
  | cons a l ih => exact all_cons (h a) ih

/-- A method over a body that is a tour is a tour. -/
theorem on_toured {i : Item} {body : Act σ ε} (hg : Grouped i = false) (he : ending i = [])
    (h : TouredAll opens act (heldIn i) body) : Toured opens act i ((touring opens act : Visitor σ ε).on i body) := by
  obtain ⟨t, ht, hd⟩ := h
  by_cases ho : opens i
  · refine ⟨_, .opened i t ho ht, fun s => ?_⟩
    simp [touring, ho, hd _, hg, he, played]
  · exact ⟨_, .shut i (by simpa using ho), fun s => by simp [touring, ho, played]⟩

/-- The same for the nodes of a group. -/
theorem on_grouped {i : Item} {body : Act σ ε} (hg : Grouped i = true) (he : ending i = [])
    (h : TouredAll opens act (heldIn i) body) :
    Toured opens act i ((touring opens act : Visitor σ ε).on i
      (andThen ((touring opens act : Visitor σ ε).group i) body)) := by
  obtain ⟨t, ht, hd⟩ := h
  by_cases ho : opens i
  · refine ⟨_, .opened i t ho ht, fun s => ?_⟩
    simp [touring, andThen, ho, hd _, hg, he, played]
  · exact ⟨_, .shut i (by simpa using ho), fun s => by simp [touring, ho, played]⟩

/-- The same for the nodes of a group that hold nothing. -/
theorem on_alone {i : Item} (hg : Grouped i = true) (he : ending i = []) (hh : heldIn i = []) :
    Toured opens act i ((touring opens act : Visitor σ ε).on i ((touring opens act : Visitor σ ε).group i)) := by
  have := on_grouped (ε := ε) (act := act) (opens := opens) (body := nothing) hg he (by rw [hh]; exact all_nil)
  convert this using 2
  funext s
  simp [touring, andThen, nothing]

mutual
theorem expr_toured : ∀ e : Expr, Toured opens act (.expr e) (visitExpr (touring opens act : Visitor σ ε) e)
  | .const c => by rw [visitExpr]; exact on_alone rfl rfl rfl
  | .var c => by rw [visitExpr]; exact on_alone rfl rfl rfl
  | .paren e => by rw [visitExpr]; exact on_grouped rfl rfl (all_one (expr_toured e))
  | .neg e => by rw [visitExpr]; exact on_grouped rfl rfl (all_one (expr_toured e))
  | .pos e => by rw [visitExpr]; exact on_grouped rfl rfl (all_one (expr_toured e))
  | .bin op h t => by rw [visitExpr]; exact on_grouped rfl rfl (all_cons (expr_toured h) (tail_toured t))
theorem tail_toured : ∀ es : List Expr,
    TouredAll opens act (es.map .expr) (visitTail (touring opens act : Visitor σ ε) es)
  | [] => by rw [visitTail]; exact all_nil
  | e :: es => by rw [visitTail]; exact all_cons (expr_toured e) (tail_toured es)
end

theorem point_toured (p : Expr × Expr) :
    Toured opens act (.point p.1 p.2) (visitPoint (touring opens act : Visitor σ ε) p) :=
  on_toured rfl rfl (all_append (is := [.expr p.1]) (js := [.expr p.2]) (all_one (expr_toured p.1))
    (all_one (expr_toured p.2)))

theorem coord_toured (a : Axis) (t : Peg.Text) :
    Toured opens act (.coord a t) (visitCoord (touring opens act : Visitor σ ε) a t) := on_alone rfl rfl rfl

theorem option_toured (a : Axis) (o : Option Peg.Text) :
    TouredAll opens act (present a o) (visitOption (visitCoord (touring opens act : Visitor σ ε) a) o) := by
  cases o with
  | none => exact all_nil
  | some t => exact all_one (coord_toured a t)

theorem exprs_toured (es : List Expr) :
    TouredAll opens act (es.map .expr) (inTurn (es.map (visitExpr (touring opens act : Visitor σ ε)))) :=
  all_map _ _ es expr_toured

theorem inside_prim (p : Prim) :
    TouredAll opens act (heldIn (.prim p)) (insidePrim (touring opens act : Visitor σ ε) p) := by
  cases p with
  | assign x e => exact all_cons (expr_toured _) (all_one (expr_toured _))
  | code0 => exact all_nil
  | code1 a b c d r =>
    refine all_append (exprs_toured [a, b, c, d]) ?_
    cases r with
    | none => exact all_nil
    | some r => exact all_one (expr_toured r)
  | code2 a b c d e f g => exact exprs_toured [a, b, c, d, e, f, g]
  | code4 a b c d ps r =>
    simp only [heldIn, insidePrim, inTurn_append]
    refine all_append (all_append (exprs_toured [a, b, c, d]) ?_) (exprs_toured [r])
    exact all_map (fun p : Expr × Expr => .point p.1 p.2) _ ps point_toured
  | code5 a b c d e f => exact exprs_toured [a, b, c, d, e, f]
  | code6 a b c d e f g h i => exact exprs_toured [a, b, c, d, e, f, g, h, i]
  | code7 a b c d e f => exact exprs_toured [a, b, c, d, e, f]
  | code20 a b c d e f g => exact exprs_toured [a, b, c, d, e, f, g]
  | code21 a b c d e f => exact exprs_toured [a, b, c, d, e, f]
  | code22 a b c d e f => exact exprs_toured [a, b, c, d, e, f]

theorem prim_toured (p : Prim) : Toured opens act (.prim p) (visitPrim (touring opens act : Visitor σ ε) p) :=
  on_toured rfl rfl (inside_prim p)

theorem all_turn (l : List (List Item × Act σ ε)) (h : ∀ p ∈ l, TouredAll opens act p.1 p.2) :
    TouredAll opens act (l.flatMap (·.1)) (inTurn (l.map (·.2))) := by
  induction l with
  | nil => exact all_nil
  | cons p l ih => exact all_append (h p (by simp)) (ih fun q hq => h q (by simp [hq]))

theorem leaf_toured (n : Node) (h : ∀ id ns, n ≠ .ab id ns) (h2 : ∀ x y i j ns, n ≠ .sr x y i j ns)
    (h3 : ∀ m ps, n ≠ .am m ps) :
    Toured opens act (.node n) ((touring opens act : Visitor σ ε).on (.node n) (insideLeaf (touring opens act) n)) := by
  cases n
  case ab => exact absurd rfl (h _ _)
  case sr => exact absurd rfl (h2 _ _ _ _ _)
  case am => exact absurd rfl (h3 _ _)
  case d01 x y i j st =>
    refine on_toured rfl rfl ?_
    have := all_turn (opens := opens) (act := act) (ε := ε)
      [(present .x x, visitOption (visitCoord (touring opens act) .x) x),
       (present .y y, visitOption (visitCoord (touring opens act) .y) y),
       (present .i i, visitOption (visitCoord (touring opens act) .i) i),
       (present .j j, visitOption (visitCoord (touring opens act) .j) j)]
      (by simp only [List.mem_cons, List.not_mem_nil, or_false]; rintro p (rfl | rfl | rfl | rfl) <;> exact option_toured _ _)
    simpa [heldIn, insideLeaf] using this
  case d02 x y st =>
    refine on_toured rfl rfl ?_
    have := all_turn (opens := opens) (act := act) (ε := ε)
      [(present .x x, visitOption (visitCoord (touring opens act) .x) x),
       (present .y y, visitOption (visitCoord (touring opens act) .y) y)]
      (by simp only [List.mem_cons, List.not_mem_nil, or_false]; rintro p (rfl | rfl) <;> exact option_toured _ _)
    simpa [heldIn, insideLeaf] using this
  case d03 x y st =>
    refine on_toured rfl rfl ?_
    have := all_turn (opens := opens) (act := act) (ε := ε)
      [(present .x x, visitOption (visitCoord (touring opens act) .x) x),
       (present .y y, visitOption (visitCoord (touring opens act) .y) y)]
      (by simp only [List.mem_cons, List.not_mem_nil, or_false]; rintro p (rfl | rfl) <;> exact option_toured _ _)
    simpa [heldIn, insideLeaf] using this
  all_goals first | exact on_alone rfl rfl rfl | exact on_toured rfl rfl all_nil

mutual
theorem node_toured : ∀ n : Node, Toured opens act (.node n) (visitNode (touring opens act : Visitor σ ε) n)
  | .ab id ns => by
    rw [visitNode]
    exact on_toured rfl rfl (all_cons (on_toured rfl rfl all_nil)
      (all_append (nodes_toured ns) (all_one (on_toured rfl rfl all_nil))))
  | .sr x y i j ns => by
    rw [visitNode]
    exact on_toured rfl rfl (all_cons (on_toured rfl rfl all_nil)
      (all_append (nodes_toured ns) (all_one (on_toured rfl rfl all_nil))))
  | .am name ps => by
    rw [visitNode]
    exact on_toured rfl rfl (all_cons (on_toured rfl rfl all_nil)
      (all_append (all_map _ _ ps prim_toured) (all_one (on_toured rfl rfl all_nil))))
  | .adc .. | .adr .. | .ado .. | .adp .. | .adMacro .. | .taUser .. | .taFunction .. | .taDrill .. | .taFlash ..
  | .td .. | .tfUser .. | .tfPart .. | .tfFunction .. | .tfPolarity .. | .tfSame .. | .tfDate .. | .tfSoftware ..
  | .tfProject .. | .tfMd5 .. | .toUser .. | .toN .. | .toP .. | .toText .. | .toRot .. | .toHeight .. | .toMount ..
  | .toSup .. | .dnn .. | .d01 .. | .d02 .. | .d03 .. | .g .. | .g04 .. | .lm .. | .ln .. | .lp .. | .lr .. | .ls ..
  | .m00 | .m01 | .m02 | .as_ .. | .fs .. | .in_ .. | .ip .. | .ir .. | .mi .. | .mo .. | .of_ .. | .sf .. => by
    rw [visitNode]
    · exact leaf_toured _ (by simp) (by simp) (by simp)
    all_goals simp
theorem nodes_toured : ∀ ns : List Node,
    TouredAll opens act (ns.map .node) (visitNodes (touring opens act : Visitor σ ε) ns)
  | [] => by rw [visitNodes]; exact all_nil
  | n :: ns => by rw [visitNodes]; exact all_cons (node_toured n) (nodes_toured ns)
end

theorem loop_toured (ns : List Entry) :
    TouredAll opens act (heldIn (.file ns)) (fileLoop (touring opens act : Visitor σ ε) ns) := by
  induction ns with
  | nil => exact all_nil
  | cons n ns ih =>
    have h1 : Toured opens act (entryItem n) (visitEntry (touring opens act : Visitor σ ε) n) := by
      cases n with
      | node n => exact node_toured n
      | invalid t => exact on_toured rfl rfl all_nil
    obtain ⟨t, ht, hd⟩ := h1
    obtain ⟨u, hu, he⟩ := ih
    refine ⟨t ++ u, ?_, fun s => ?_⟩
    · have : heldIn (.file (n :: ns)) = entryItem n :: heldIn (.file ns) := by cases n <;> rfl
      rw [this]
      exact .cons _ _ _ _ ht hu
    · simp only [fileLoop, hd s, he _, played_append]

theorem file_toured (ns : List Entry) :
    Toured opens act (.file ns) (visitFile (touring opens act : Visitor σ ε) ns) := by
  obtain ⟨t, ht, hd⟩ := loop_toured (ε := ε) (opens := opens) (act := act) ns
  have key : ∀ s, insideFile (touring opens act : Visitor σ ε) ns s
      = (act (.fileEnds (.file ns)) (played act t s), none) := by
    intro s
    simp only [insideFile, hd s]
    rfl
  by_cases ho : opens (.file ns)
  · refine ⟨_, .opened _ t ho ht, fun s => ?_⟩
    show (if opens (.file ns) then _ else _) = _
    rw [if_pos ho, key]
    simp [Grouped, ending, played]
  · exact ⟨_, .shut _ (by simpa using ho), fun s => by simp [visitFile, touring, ho, played]⟩

mutual
theorem tour_unique : ∀ {i : Item} {t u : List Moment}, Tour opens i t → Tour opens i u → t = u
  | _, _, _, .shut _ _, .shut _ _ => rfl
  | _, _, _, .shut _ h, .opened _ _ k _ => by rw [h] at k; cases k
  | _, _, _, .opened _ _ k _, .shut _ h => by rw [h] at k; cases k
  | _, _, _, .opened _ _ _ h, .opened _ _ _ k => by rw [tours_unique h k]
theorem tours_unique : ∀ {is : List Item} {t u : List Moment}, Tours opens is t → Tours opens is u → t = u
  | _, _, _, .nil, .nil => rfl
  | _, _, _, .cons _ _ _ _ h1 h2, .cons _ _ _ _ k1 k2 => by rw [tour_unique h1 k1, tours_unique h2 k2]
end

/-- The nodes entered on a tour. -/
def entered (t : List Moment) : List Item := t.filterMap fun | .enter i => some i | _ => none

mutual
theorem tour_order : ∀ {i : Item} {t : List Moment}, Tour (fun _ => true) i t → SourceOrder i (entered t)
  | _, _, .shut _ h => by cases h
  | _, _, .opened i t _ h => by
    have := SourceOrder.mk i _ (tours_order h)
    convert this using 1
    have : ending i = [] ∨ ∃ ns, ending i = [.fileEnds (.file ns)] := by cases i <;> simp [ending]
    rcases this with e | ⟨ns, e⟩ <;> by_cases g : Grouped i <;> simp [entered, e, g]
theorem tours_order : ∀ {is : List Item} {t : List Moment}, Tours (fun _ => true) is t → AllSourceOrder is (entered t)
  | _, _, .nil => .nil
  | _, _, .cons i is t ts h1 h2 => by
    have := AllSourceOrder.cons i is _ _ (tour_order h1) (tours_order h2)
    simpa [entered] using this
end

mutual
theorem order_unique : ∀ {i : Item} {l m : List Item}, SourceOrder i l → SourceOrder i m → l = m
  | _, _, _, .mk _ _ h, .mk _ _ k => by rw [orders_unique h k]
theorem orders_unique : ∀ {is : List Item} {l m : List Item}, AllSourceOrder is l → AllSourceOrder is m → l = m
  | _, _, _, .nil, .nil => rfl
  | _, _, _, .cons _ _ _ _ h1 h2, .cons _ _ _ _ k1 k2 => by rw [order_unique h1 k1, orders_unique h2 k2]
end

/-- C76: a visitor whose methods act on entering and on leaving a node and call the inherited method in between, where
they choose to, makes the tour over the file: every node is entered once, before the nodes it holds, which are visited
in the order of the source, and it is left after them; nothing is raised. -/
theorem c76_tour {σ ε : Type} (opens : Item → Bool) (act : Moment → σ → σ) (ns : List Entry) :
    ∃ t, (∀ u, Tour opens (.file ns) u ↔ u = t) ∧
      ∀ s, visitFile (touring opens act : Visitor σ ε) ns s = (played act t s, none) := by
  obtain ⟨t, ht, hd⟩ := file_toured (ε := ε) (opens := opens) (act := act) ns
  exact ⟨t, fun u => ⟨fun hu => tour_unique hu ht, fun h => h ▸ ht⟩, hd⟩

/-- **C76** (the base class). A visitor without methods of its own walks every file to its end, changes nothing and raises
nothing. -/
theorem c76_base {σ ε : Type} (ns : List Entry) (s : σ) : visitFile (Visitor.base : Visitor σ ε) ns s = (s, none) := by
  obtain ⟨t, -, hd⟩ := c76_tour (σ := σ) (ε := ε) (fun _ => true) (fun _ s => s) ns
  have hb : (Visitor.base : Visitor σ ε) = touring (fun _ => true) (fun _ s => s) := by
    unfold Visitor.base touring
    congr 1
    funext i super s
    simp only [if_true]
    generalize super s = r
    obtain ⟨s, _ | e⟩ := r <;> rfl
  rw [hb, hd]
  congr 1
  clear hd
  induction t with
  | nil => rfl
  | cons m t ih => exact ih

/-- Notes the nodes that are entered. -/
def noting : Moment → List Item → List Item
  | .enter i, l => l ++ [i]
  | _, l => l

theorem played_noting (t : List Moment) (l : List Item) : played noting t l = l ++ entered t := by
  induction t generalizing l with
  | nil => simp [played, entered]
  | cons m t ih =>
    have : played noting (m :: t) l = played noting t (noting m l) := rfl
    rw [this, ih]
    cases m <;> simp [noting, entered]

/-- C76: a visitor that notes the nodes it is given notes every node of the file once, in the order of the source. -/
theorem c76_every_node_once (ns : List Entry) :
    ∃ l, (∀ m, SourceOrder (.file ns) m ↔ m = l) ∧
      visitFile (touring (fun _ => true) noting : Visitor (List Item) Empty) ns [] = (l, none) := by
  obtain ⟨t, ht, hd⟩ := c76_tour (ε := Empty) (fun _ => true) noting ns
  have ho := tour_order ((ht t).2 rfl)
  exact ⟨entered t, fun m => ⟨fun hm => order_unique hm ho, fun h => h ▸ ho⟩, by rw [hd, played_noting]; simp⟩

/-! ## Exceptions -/

section
variable {α : Type} {v : Visitor σ ε} {view : σ → α}

theorem keeps_andThen {a b : Act σ ε} (ha : ∀ s, view (a s).1 = view s) (hb : ∀ s, view (b s).1 = view s) :
    ∀ s, view (andThen a b s).1 = view s := by
  intro s
  have := ha s
  simp only [andThen]
  generalize a s = r at this
  obtain ⟨s', _ | e⟩ := r
  · exact (hb s').trans this
  · exact this

theorem keeps_inTurn {as : List (Act σ ε)} (h : ∀ a ∈ as, ∀ s, view (a s).1 = view s) :
    ∀ s, view (inTurn as s).1 = view s := by
  induction as with
  | nil => intro s; rfl
  | cons a as ih => exact keeps_andThen (h a (by simp)) (ih fun b hb => h b (by simp [hb]))

variable (hv : Indifferent v view)
include hv

mutual
theorem keeps_expr : ∀ (e : Expr) (s : σ), view (visitExpr v e s).1 = view s
  | .const c, s => by rw [visitExpr]; exact hv.on _ _ _ (by simp) (hv.group _)
  | .var c, s => by rw [visitExpr]; exact hv.on _ _ _ (by simp) (hv.group _)
  | .paren e, s => by rw [visitExpr]; exact hv.on _ _ _ (by simp) (keeps_andThen (hv.group _) (keeps_expr e))
  | .neg e, s => by rw [visitExpr]; exact hv.on _ _ _ (by simp) (keeps_andThen (hv.group _) (keeps_expr e))
  | .pos e, s => by rw [visitExpr]; exact hv.on _ _ _ (by simp) (keeps_andThen (hv.group _) (keeps_expr e))
  | .bin op h t, s => by
    rw [visitExpr]
    exact hv.on _ _ _ (by simp) (keeps_andThen (hv.group _) (keeps_andThen (keeps_expr h) (keeps_tail t)))
theorem keeps_tail : ∀ (es : List Expr) (s : σ), view (visitTail v es s).1 = view s
  | [], s => by rw [visitTail]; rfl
  | e :: es, s => by rw [visitTail]; exact keeps_andThen (keeps_expr e) (keeps_tail es) s
end

omit hv in
theorem keeps_option {β : Type} {f : β → Act σ ε} (hf : ∀ b s, view (f b s).1 = view s) (o : Option β) (s : σ) :
    view (visitOption f o s).1 = view s := by
  cases o with
  | none => rfl
  | some b => exact hf b s

theorem keeps_coord (a : Axis) (t : Peg.Text) (s : σ) : view (visitCoord v a t s).1 = view s :=
  hv.on _ _ _ (by simp) (hv.group _)

theorem keeps_prim (p : Prim) (s : σ) : view (visitPrim v p s).1 = view s := by
  refine hv.on _ _ _ (by simp) ?_
  have hp : ∀ (q : Expr × Expr) s, view (visitPoint v q s).1 = view s := fun q s =>
    hv.on _ _ _ (by simp) (keeps_andThen (keeps_expr hv q.1) (keeps_expr hv q.2))
  have he := keeps_expr hv
  cases p with
  | assign x e => exact keeps_andThen (he _) (he _)
  | code0 => intro s; rfl
  | code1 a b c d r =>
    refine keeps_andThen (keeps_inTurn ?_) (keeps_option he r)
    simp only [List.mem_cons, List.not_mem_nil, or_false]
    rintro x (rfl | rfl | rfl | rfl) <;> exact he _
  | code4 a b c d ps r =>
    refine keeps_inTurn ?_
    simp only [List.mem_append, List.mem_cons, List.not_mem_nil, or_false, List.mem_map]
    rintro x (((rfl | rfl | rfl | rfl) | ⟨q, _, rfl⟩) | rfl)
    · exact he _
    · exact he _
    · exact he _
    · exact he _
    · exact hp q
    · exact he _
  | _ =>
    refine keeps_inTurn ?_
    simp only [List.mem_cons, List.not_mem_nil, or_false]
    rintro x h
    repeat' (first | exact (h ▸ he _) | rcases h with rfl | h)
    all_goals exact he _

theorem keeps_leaf (n : Node) (s : σ) : view (insideLeaf v n s).1 = view s := by
  have hc := keeps_coord hv
  cases n <;> first
    | exact hv.group _ _
    | rfl
    | (refine keeps_inTurn ?_ s
       simp only [List.mem_cons, List.not_mem_nil, or_false]
       rintro x h
       repeat' (first | rcases h with rfl | h)
       all_goals exact keeps_option (hc _) _)

mutual
theorem keeps_node : ∀ (n : Node) (s : σ), view (visitNode v n s).1 = view s
  | .ab id ns, s => by
    rw [visitNode]
    exact hv.on _ _ _ (by simp) (keeps_andThen (fun s => hv.on _ _ _ (by simp) fun _ => rfl)
      (keeps_andThen (keeps_nodes ns) fun s => hv.on _ _ _ (by simp) fun _ => rfl))
  | .sr x y i j ns, s => by
    rw [visitNode]
    exact hv.on _ _ _ (by simp) (keeps_andThen (fun s => hv.on _ _ _ (by simp) fun _ => rfl)
      (keeps_andThen (keeps_nodes ns) fun s => hv.on _ _ _ (by simp) fun _ => rfl))
  | .am name ps, s => by
    rw [visitNode]
    refine hv.on _ _ _ (by simp) (keeps_andThen (fun s => hv.on _ _ _ (by simp) fun _ => rfl)
      (keeps_andThen (keeps_inTurn ?_) fun s => hv.on _ _ _ (by simp) fun _ => rfl))
    simp only [List.mem_map]
    rintro x ⟨p, _, rfl⟩
    exact keeps_prim hv p
  | .adc .., s | .adr .., s | .ado .., s | .adp .., s | .adMacro .., s | .taUser .., s | .taFunction .., s
  | .taDrill .., s | .taFlash .., s | .td .., s | .tfUser .., s | .tfPart .., s | .tfFunction .., s
  | .tfPolarity .., s | .tfSame .., s | .tfDate .., s | .tfSoftware .., s | .tfProject .., s | .tfMd5 .., s
  | .toUser .., s | .toN .., s | .toP .., s | .toText .., s | .toRot .., s | .toHeight .., s | .toMount .., s
  | .toSup .., s | .dnn .., s | .d01 .., s | .d02 .., s | .d03 .., s | .g .., s | .g04 .., s | .lm .., s | .ln .., s
  | .lp .., s | .lr .., s | .ls .., s | .m00, s | .m01, s | .m02, s | .as_ .., s | .fs .., s | .in_ .., s | .ip .., s
  | .ir .., s | .mi .., s | .mo .., s | .of_ .., s | .sf .., s => by
    rw [visitNode]
    · exact hv.on _ _ _ (by simp) (keeps_leaf hv _)
    all_goals simp
theorem keeps_nodes : ∀ (ns : List Node) (s : σ), view (visitNodes v ns s).1 = view s
  | [], s => by rw [visitNodes]; rfl
  | n :: ns, s => by rw [visitNodes]; exact keeps_andThen (keeps_node n) (keeps_nodes ns) s
end

theorem keeps_entry (n : Entry) (s : σ) : view (visitEntry v n s).1 = view s := by
  cases n with
  | node n => exact keeps_node hv n s
  | invalid t => exact hv.on _ _ _ (by simp) fun _ => rfl

theorem keeps_loop (ns : List Entry) (s : σ) : view (fileLoop v ns s).1 = view s := by
  induction ns generalizing s with
  | nil => rfl
  | cons n ns ih =>
    have h1 := keeps_entry hv n s
    simp only [fileLoop]
    generalize visitEntry v n s = r at h1
    obtain ⟨s', _ | e⟩ := r
    · exact (ih s').trans h1
    · have h2 := hv.onException (entryItem n) e s'
      simp only at h1 ⊢
      generalize v.onException (entryItem n) e s' = q at h2
      obtain ⟨s2, e2 | _ | _⟩ := q
      · exact h2.trans h1
      · exact (ih s2).trans (h2.trans h1)
      · exact h2.trans h1
end

/-- C76: whatever the methods of a visitor do and raise, the end of the file is announced exactly once, and after
everything else.  `view` may count the announcements, `f` is then the successor. -/
theorem c76_end_of_file {α : Type} (v : Visitor σ ε) (view : σ → α) (f : α → α) (hv : Indifferent v view)
    (hend : ∀ i s, view (v.endOfFile i s).1 = f (view s)) (ns : List Entry)
    (hfile : ∀ super, v.on (.file ns) super = super) (s : σ) :
    view (visitFile v ns s).1 = f (view s) ∧ ∃ before, (visitFile v ns s).1 = (v.endOfFile (.file ns) before).1 := by
  have h := keeps_loop hv ns s
  simp only [visitFile, hfile, insideFile]
  generalize fileLoop v ns s = r at h
  obtain ⟨s', e⟩ := r
  simp only at h ⊢
  have h2 := hend (.file ns) s'
  constructor
  · generalize v.endOfFile (.file ns) s' = q at h2
    obtain ⟨s2, _ | e2⟩ := q <;> exact h2.trans (by rw [h])
  · refine ⟨s', ?_⟩
    generalize v.endOfFile (.file ns) s' = q
    obtain ⟨s2, _ | e2⟩ := q <;> rfl

/-- C76: a visitor that tolerates exceptions visits every command of the file, whatever was raised before. -/
theorem c76_tolerant (v : Visitor σ ε) (forgive : Item → ε → σ → σ)
    (hx : ∀ i e s, v.onException i e s = (forgive i e s, .ok false)) (ns : List Entry)
    (hfile : ∀ super, v.on (.file ns) super = super) (s : σ) :
    visitFile v ns s = v.endOfFile (.file ns) (ns.foldl (fun s n =>
      match visitEntry v n s with
      | (s, none) => s
      | (s, some e) => forgive (entryItem n) e s) s) := by
  have h : ∀ ns s, fileLoop v ns s = (ns.foldl (fun s n =>
      match visitEntry v n s with
      | (s, none) => s
      | (s, some e) => forgive (entryItem n) e s) s, none) := by
    intro ns
    induction ns with
    | nil => intro s; rfl
    | cons n ns ih =>
      intro s
      simp only [fileLoop, List.foldl_cons]
      generalize visitEntry v n s = r
      obtain ⟨s', _ | e⟩ := r
      · exact ih s'
      · simp only [hx, ih]
  simp only [visitFile, hfile, insideFile, h]
  generalize v.endOfFile _ _ = q
  obtain ⟨s2, _ | e2⟩ := q <;> rfl

/-- C76: with a visitor that does not tolerate exceptions, the first command that raises one is the last that is
visited; the exception is that of the walk, unless the handler of the end of the file raises another. -/
theorem c76_raises (v : Visitor σ ε) (before after : List Entry) (n : Entry)
    (hfile : ∀ super, v.on (.file (before ++ n :: after)) super = super) (s s₁ s₂ s₃ : σ) (e : ε)
    (hbefore : fileLoop v before s = (s₁, none)) (hn : visitEntry v n s₁ = (s₂, some e))
    (hx : v.onException (entryItem n) e s₂ = (s₃, .ok true)) :
    visitFile v (before ++ n :: after) s
      = (match v.endOfFile (.file (before ++ n :: after)) s₃ with
        | (s, none) => (s, some e)
        | (s, some e') => (s, some e')) := by
  have h : ∀ ns s, fileLoop v ns s = (s₁, none) → fileLoop v (ns ++ n :: after) s = (s₃, some e) := by
    intro ns
    induction ns with
    | nil =>
      intro s h
      simp only [fileLoop, Prod.mk.injEq, and_true] at h
      subst h
      simp [fileLoop, hn, hx]
    | cons m ns ih =>
      intro s h
      simp only [fileLoop, List.cons_append] at h ⊢
      generalize visitEntry v m s = r at h
      obtain ⟨s', _ | e'⟩ := r
      · exact ih s' h
      · simp only at h ⊢
        generalize v.onException (entryItem m) e' s' = q at h
        obtain ⟨s4, e4 | _ | _⟩ := q
        · simp at h
        · exact ih s4 h
        · simp at h
  simp only [visitFile, hfile, insideFile, h _ _ hbefore]
  generalize v.endOfFile _ _ = q
  obtain ⟨s2, _ | e2⟩ := q <;> rfl

/-! ## Listeners -/

/-- Listeners that note their number and the node. -/
def noters (cs : List String) : List (Registration (List (Nat × Item)) ε) :=
  cs.zipIdx.map fun c => ⟨c.1, fun i s => (s ++ [(c.2, i)], none)⟩

/-- The listeners for the class of a node. -/
def listening (cs : List String) (i : Item) : List (Nat × Item) :=
  (cs.zipIdx.filter fun c => c.1 == className i).map fun c => (c.2, i)

theorem trigger_noters (cs : List String) (i : Item) (s : List (Nat × Item)) :
    trigger (noters cs : List (Registration _ ε)) i s = (s ++ listening cs i, none) := by
  unfold trigger noters listening
  generalize cs.zipIdx = l
  induction l generalizing s with
  | nil => simp [inTurn, nothing]
  | cons c l ih =>
    by_cases h : c.1 = className i
    · have := ih (s ++ [(c.2, i)])
      simp [h, inTurn, andThen] at this ⊢
      simpa using this
    · have := ih s
      simpa [h] using this

/-- What the listeners note at a moment. -/
def heard (cs : List String) : Moment → List (Nat × Item) → List (Nat × Item)
  | .enter i, s => s ++ listening cs i
  | .group i, s => s ++ listening cs i
  | .fileEnds i, s => s ++ listening cs i
  | .leave _, s => s

theorem event_touring (cs : List String) :
    (eventVisitor (noters cs) : Visitor _ ε) = touring (fun _ => true) (heard cs) := by
  unfold eventVisitor touring
  congr 1
  · funext i super s
    simp only [andThen, trigger_noters, heard, if_true]
    generalize super _ = r
    obtain ⟨s, _ | e⟩ := r <;> rfl
  · funext i s; simp [trigger_noters, heard]
  · funext i s; simp [trigger_noters, heard]

theorem present_no_file (a : Axis) (o : Option Peg.Text) (ns : List Entry) : Item.file ns ∉ present a o := by
  cases o <;> simp [present]

theorem held_no_file (i : Item) (ns : List Entry) : Item.file ns ∉ heldIn i := by
  have hp := present_no_file
  cases i with
  | file l =>
    simp only [heldIn, List.mem_map, not_exists, not_and]
    rintro (n | t) _ <;> simp
  | node n => cases n <;> simp [heldIn, hp]
  | prim p => cases p <;> simp [heldIn]
  | expr e => cases e <;> simp [heldIn]
  | _ => simp [heldIn]

/-- The calls for a node: two if it is in a group. -/
def callsFor (cs : List String) (i : Item) : List (Nat × Item) :=
  if Grouped i then listening cs i ++ listening cs i else listening cs i

mutual
theorem tour_heard (cs : List String) : ∀ {i : Item} {t : List Moment},
    Tour (fun _ => true) i t → (∀ ns, i ≠ .file ns) → ∀ s, played (heard cs) t s = s ++ (entered t).flatMap (callsFor cs)
  | _, _, .shut _ h => by cases h
  | _, _, .opened i t h0 h => by
    intro hf s
    have he : ending i = [] := by cases i <;> first | rfl | exact absurd rfl (hf _)
    have hi := tours_heard cs h (fun j hj ns e => held_no_file i ns (e ▸ hj))
    have hs : ∀ (m : Moment) (u : List Moment) s, played (heard cs) (m :: u) s = played (heard cs) u (heard cs m s) :=
      fun _ _ _ => rfl
    have hn : ∀ s, played (heard cs) [] s = s := fun _ => rfl
    by_cases g : Grouped i
    · simp only [g, he, if_true, List.append_assoc, List.cons_append, List.nil_append, hs, played_append, hi, hn, heard]
      simp [entered, callsFor, g]
    · simp only [g, he, List.append_assoc, List.cons_append, List.nil_append, hs, played_append, hi, hn, heard]
      simp [entered, callsFor, g, hs, hi, played_append, hn, heard]
theorem tours_heard (cs : List String) : ∀ {is : List Item} {t : List Moment}, Tours (fun _ => true) is t →
    (∀ i ∈ is, ∀ ns, i ≠ .file ns) → ∀ s, played (heard cs) t s = s ++ (entered t).flatMap (callsFor cs)
  | _, _, .nil => by intro _ s; simp [played, entered]
  | _, _, .cons i is t ts h1 h2 => by
    intro hf s
    rw [played_append, tour_heard cs h1 (hf i (by simp)), tours_heard cs h2 (fun j hj => hf j (by simp [hj]))]
    simp [entered]
end

/-- C76, listeners: what listeners for the types `cs`, in the order in which they were registered, are called with on a
walk over a file.  Missing: the statement asks for one call for every node of the type, but the nodes of a group
(aperture definitions, attributes, expressions, coordinates) and files give two. -/
theorem c76_listeners_partial (cs : List String) (ns : List Entry) :
    ∃ l, SourceOrder (.file ns) l ∧
      visitFile (eventVisitor (noters cs) : Visitor (List (Nat × Item)) Empty) ns []
        = (l.flatMap (callsFor cs) ++ listening cs (.file ns), none) := by
  obtain ⟨t, ht, hd⟩ := c76_tour (ε := Empty) (fun _ => true) (heard cs) ns
  have h0 := (ht t).2 rfl
  refine ⟨entered t, tour_order h0, ?_⟩
  rw [event_touring, hd]
  cases h0 with
  | shut _ h => cases h
  | opened _ u _ hu =>
    have hi := tours_heard cs hu (fun j hj m e => held_no_file (.file ns) m (e ▸ hj))
    have hs : ∀ (m : Moment) (u : List Moment) s, played (heard cs) (m :: u) s = played (heard cs) u (heard cs m s) :=
      fun _ _ _ => rfl
    have hn : ∀ s, played (heard cs) [] s = s := fun _ => rfl
    simp [Grouped, ending, hs, played_append, hi, hn, heard, entered, callsFor]

/-- C76, listeners: one listener, for a type whose nodes are in no group and that is not that of files, is called once
for every node of that type, in the order of the source. -/
theorem c76_listener_partial (c : String) (hc : ∀ i, className i = c → Grouped i = false) (hf : c ≠ "File")
    (ns : List Entry) :
    ∃ l, SourceOrder (.file ns) l ∧
      visitFile (eventVisitor (noters [c]) : Visitor (List (Nat × Item)) Empty) ns []
        = ((l.filter fun i => className i = c).map fun i => (0, i), none) := by
  obtain ⟨l, hl, h⟩ := c76_listeners_partial [c] ns
  refine ⟨l, hl, ?_⟩
  rw [h]
  have h1 : listening [c] (.file ns) = [] := by simp [listening, className, hf]
  have h2 : ∀ i, callsFor [c] i = if className i = c then [(0, i)] else [] := by
    intro i
    by_cases e : className i = c
    · simp [callsFor, hc i e, listening, e]
    · have : ¬ c = className i := fun h => e h.symm
      simp [callsFor, listening, e, this]
  rw [h1, List.append_nil]
  congr 1
  clear hl h
  induction l with
  | nil => rfl
  | cons i l ih =>
    rw [List.flatMap_cons, ih, h2]
    by_cases e : className i = c <;> simp [e]

end

/-- Nodes whose type has the name of the command they are written as: all but the definitions of apertures, attributes
named by the user, the selection of an aperture, blocks, and the two object attributes `TO_CMNP` and `TO_CLbN`, which are
written `.CMPN` and `.CLbn`. -/
def Named : Node → Bool
  | .ab .. | .am .. | .sr .. | .adc .. | .adr .. | .ado .. | .adp .. | .adMacro .. | .taUser .. | .tfUser ..
  | .toUser .. | .dnn .. | .toText .cMpn _ | .toText .cLbN _ => false
  | _ => true

/-- The name of a type as it would be written in a file: a dot for an underscore. -/
def dotted (c : String) : List Char := c.toList.map fun x => if x = '_' then '.' else x

/-- C76, the names of types: what the formatter writes for a node contains the name of its type, unless the formatter is
told to leave the command out.  So a listener for "G74" hears of the commands G74. -/
theorem c76_type_names (o : Formatter.Opts) (h54 : o.removeG54 = false) (h55 : o.removeG55 = false) (n : Node)
    (hn : Named n = true) : dotted (className (.node n)) <:+: Formatter.leaf o n := by
  have hext : ∀ (c : String) (k r : List Char), dotted c <+: k → dotted c <:+: Formatter.ext o (k ++ r) := by
    rintro c k r ⟨t, rfl⟩
    exact ⟨['%'], t ++ r ++ '*' :: '%' :: o.lf, by simp [Formatter.ext]⟩
  have hcmd : ∀ (c : String) (l k r : List Char), dotted c <+: k → dotted c <:+: Formatter.cmd o (l ++ (k ++ r)) := by
    rintro c l k r ⟨t, rfl⟩
    exact ⟨l, t ++ r ++ '*' :: o.lf, by simp [Formatter.cmd]⟩
  have hcmd0 : ∀ (c : String) (k : List Char), dotted c <+: k → dotted c <:+: Formatter.cmd o k := by
    intro c k h
    simpa using hcmd c [] k [] h
  have hcmd1 : ∀ (c : String) (k r : List Char), dotted c <+: k → dotted c <:+: Formatter.cmd o (k ++ r) := by
    intro c k r h
    simpa using hcmd c [] k r h
  have hcmd2 : ∀ (c : String) (l k : List Char), dotted c <+: k → dotted c <:+: Formatter.cmd o (l ++ k) := by
    intro c l k h
    simpa using hcmd c l k [] h
  cases n
  case g c s =>
    have h : dotted (gClass c) <+: Formatter.gName c := by cases c <;> decide
    simp only [className, nodeClass, Formatter.leaf, Formatter.gText, h54, h55]
    simp only [Bool.false_eq_true, and_false, or_self, if_false]
    split
    · exact hcmd0 _ _ h
    · exact h.isInfix
  case toText k v =>
    have h : dotted (toClass k) <+: Formatter.toName k := by
      cases k <;> first
        | exact Bool.noConfusion (show false = true from hn)
        | decide
    exact hext _ _ _ h
  all_goals first
    | exact Bool.noConfusion (show false = true from hn)
    | (simp only [className, nodeClass, Formatter.leaf, List.append_assoc]; refine hext _ _ _ ?_; decide)
    | (simp only [className, nodeClass, Formatter.leaf, List.append_assoc]; refine hcmd0 _ _ ?_; decide)
    | (simp only [className, nodeClass, Formatter.leaf, List.append_assoc]; refine hcmd1 _ _ _ ?_; decide)
    | (simp only [className, nodeClass, Formatter.leaf]; refine hcmd2 _ _ _ ?_; decide)

/-- The same for the primitives of macros: the number in the name of the type is the code that is written first. -/
theorem c76_primitive_names (o : Formatter.Opts) (p : Prim) (hp : ∀ v e, p ≠ .assign v e) :
    ∃ code rest, (className (.prim p)).toList = "Code".toList ++ code ∧
      Formatter.prim o p = Formatter.primLf o ++ code ++ rest ∧ code ≠ [] ∧ (∀ c ∈ code, c.isDigit) := by
  cases p
  case assign v e => exact absurd rfl (hp v e)
  case code0 => exact ⟨['0'], _, by simp [className, primClass], by
    simp only [Formatter.prim, List.append_assoc, List.cons_append, List.nil_append]; rfl, by simp, by decide⟩
  case code1 => exact ⟨['1'], _, by simp [className, primClass], by
    simp only [Formatter.prim, List.append_assoc, List.cons_append, List.nil_append]; rfl, by simp, by decide⟩
  case code2 => exact ⟨['2'], _, by simp [className, primClass], by
    simp only [Formatter.prim, List.append_assoc, List.cons_append, List.nil_append]; rfl, by simp, by decide⟩
  case code4 => exact ⟨['4'], _, by simp [className, primClass], by
    simp only [Formatter.prim, List.append_assoc, List.cons_append, List.nil_append]; rfl, by simp, by decide⟩
  case code5 => exact ⟨['5'], _, by simp [className, primClass], by
    simp only [Formatter.prim, List.append_assoc, List.cons_append, List.nil_append]; rfl, by simp, by decide⟩
  case code6 => exact ⟨['6'], _, by simp [className, primClass], by
    simp only [Formatter.prim, List.append_assoc, List.cons_append, List.nil_append]; rfl, by simp, by decide⟩
  case code7 => exact ⟨['7'], _, by simp [className, primClass], by
    simp only [Formatter.prim, List.append_assoc, List.cons_append, List.nil_append]; rfl, by simp, by decide⟩
  case code20 => exact ⟨['2', '0'], _, by simp [className, primClass], by
    simp only [Formatter.prim, List.append_assoc, List.cons_append, List.nil_append]; rfl, by simp, by decide⟩
  case code21 => exact ⟨['2', '1'], _, by simp [className, primClass], by
    simp only [Formatter.prim, List.append_assoc, List.cons_append, List.nil_append]; rfl, by simp, by decide⟩
  case code22 => exact ⟨['2', '2'], _, by simp [className, primClass], by
    simp only [Formatter.prim, List.append_assoc, List.cons_append, List.nil_append]; rfl, by simp, by decide⟩

/-- A node that the theorem is about. -/
example : Named (.g .g74 true) = true ∧ dotted (className (.node (.tfPart ['x'] []))) = "TF.Part".toList := by decide

/-- A file with one aperture definition. -/
def oneAperture : List Entry := [.node (.adc ['1', '0'] 1 none)]

/-- C76 is false of listeners for nodes of a group: a listener for definitions of circles is called twice with one
definition. -/
theorem c76_false_called_twice :
    visitFile (eventVisitor (noters ["ADC"]) : Visitor (List (Nat × Item)) Empty) oneAperture []
      = ([(0, .node (.adc ['1', '0'] 1 none)), (0, .node (.adc ['1', '0'] 1 none))], none) := by
  simp [visitFile, eventVisitor, oneAperture, insideFile, fileLoop, visitEntry, visitNode, insideLeaf, andThen,
    trigger_noters, listening, className, nodeClass, nothing]

/-- C76 is false of listeners for files: they are called again when the file ends. -/
theorem c76_false_file_twice :
    visitFile (eventVisitor (noters ["File"]) : Visitor (List (Nat × Item)) Empty) oneAperture []
      = ([(0, .file oneAperture), (0, .file oneAperture)], none) := by
  simp [visitFile, eventVisitor, oneAperture, insideFile, fileLoop, visitEntry, visitNode, insideLeaf, andThen,
    trigger_noters, listening, className, nodeClass, nothing]

/-- The classes that are only a base of others. -/
def bases : List String := ["AD", "TA", "TF", "TO", "D", "G", "M", "Expression", "Coordinate", "Node"]

theorem className_not_base (i : Item) : className i ∉ bases := by
  cases i with
  | node n =>
    cases n
    case toText k _ => cases k <;> simp [className, nodeClass, toClass, bases]
    case g k _ => cases k <;> simp [className, nodeClass, gClass, bases]
    all_goals simp [className, nodeClass, bases]
  | prim p => cases p <;> simp [className, primClass, bases]
  | expr e =>
    cases e
    case bin op _ _ => cases op <;> simp [className, exprClass, bases]
    all_goals simp [className, exprClass, bases]
  | coord a _ => cases a <;> simp [className, bases]
  | _ => simp [className, bases]

/-- C76 is false of listeners for the base class of a group: they are never called. -/
theorem c76_false_base (c : String) (hc : c ∈ bases) (ns : List Entry) :
    visitFile (eventVisitor (noters [c]) : Visitor (List (Nat × Item)) Empty) ns [] = ([], none) := by
  obtain ⟨l, _, h⟩ := c76_listener_partial c (fun i e => absurd (e ▸ hc) (className_not_base i))
    (by rintro rfl; revert hc; decide) ns
  rw [h]
  have : (l.filter fun i => className i = c) = [] := by
    simp only [List.filter_eq_nil_iff, decide_eq_true_eq]
    exact fun i _ e => className_not_base i (e ▸ hc)
  rw [this]
  rfl

/-! ## The hypotheses are met -/

/-- A file with a block, a macro and draws. -/
def someFile : List Entry :=
  [.node (.ab ['1', '2'] [.g .g01 true, .d01 (some ['1']) none none (some ['2']) true]),
   .node (.am ['M'] [.assign ['$', '1'] (.neg (.const 2)), .code1 (.const 1) (.var ['$', '1']) (.const 0) (.const 0) none]),
   .invalid ['?'], .node .m02]

/-- The nodes of that file in order. -/
example : ∃ l, SourceOrder (.file someFile) l ∧ l.length = 22 ∧
    visitFile (touring (fun _ => true) noting : Visitor (List Item) Empty) someFile [] = (l, none) := by
  obtain ⟨l, h1, h2⟩ := c76_every_node_once someFile
  refine ⟨l, (h1 l).2 rfl, ?_, h2⟩
  have : (visitFile (touring (fun _ => true) noting : Visitor (List Item) Empty) someFile []).1 = l := by rw [h2]
  rw [← this]
  rfl

/-- A visitor that counts the ends of files, and raises at every D01. -/
def counting : Visitor Nat String where
  on i super := match i with
    | .node (.d01 ..) => fun s => (s, some "no")
    | _ => super
  group _ := nothing
  endOfFile _ := fun s => (s + 1, none)
  onException _ _ s := (s, .ok true)

/-- It meets the hypotheses of `c76_end_of_file`, and raises. -/
example : Indifferent counting id ∧ visitFile counting someFile 0 = (1, some "no") := by
  refine ⟨⟨?_, fun _ _ => rfl, fun _ _ _ => rfl⟩, rfl⟩
  intro i super s hf h
  clear hf
  cases i
  case node n => cases n <;> first | exact h s | rfl
  all_goals exact h s

/-- G01 is in no group. -/
example : (∀ i, className i = "G01" → Grouped i = false) ∧ "G01" ≠ "File" := by
  refine ⟨fun i h => ?_, by decide⟩
  cases i with
  | node n =>
    cases n
    case toText k _ => cases k <;> simp [className, nodeClass, toClass] at h
    all_goals first | rfl | simp [className, nodeClass] at h
  | expr e =>
    cases e
    case bin op _ _ => cases op <;> simp [className, exprClass] at h
    all_goals simp [className, exprClass] at h
  | coord a _ => cases a <;> simp [className] at h
  | _ => rfl

/-- Visiting a file in which the second command raises. -/
example : visitFile counting [.node .m02, .node (.d01 none none none none true), .node .m02] 0 = (1, some "no") := by
  have := c76_raises counting [.node .m02] [.node .m02] (.node (.d01 none none none none true)) (fun _ => rfl) 0 0 0 0 "no"
    rfl rfl rfl
  exact this

end Verif.Props.Walk
