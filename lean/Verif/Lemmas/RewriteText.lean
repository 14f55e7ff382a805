import Verif.Lemmas.Rewrite
import Verif.Lemmas.Exact

/-!
# Rewritten files in print
-/

namespace Verif.Rewrite

open Verif.Text Verif.Fmt Verif.Peg Verif.Syntax Verif.Spec Verif.Formatter Verif.Grammar
open Verif.Math hiding P

/-- Printing with the option `explicit` set to `x`. -/
abbrev setting (o : Opts) (x : Bool) : Opts := { o with explicit := x }

variable {o : Opts} {x : Bool} {g : Expr → Expr}

theorem arg_print (hp : ∀ e, print o.fd o.explicit e = print o.fd x (g e)) (e : Expr) : arg (setting o x) (g e) = arg o e := by
  unfold arg
  rw [hp e]
  rfl

theorem points_print (hp : ∀ e, print o.fd o.explicit e = print o.fd x (g e)) (ps : List (Expr × Expr)) :
    pointsText (setting o x) (ps.map fun p => (g p.1, g p.2)) = pointsText o ps := by
  induction ps with
  | nil => rfl
  | cons p ps ih =>
    simp only [List.map_cons, pointsText, ih]
    rw [hp p.1, hp p.2]
    rfl

theorem prim_print (hp : ∀ e, print o.fd o.explicit e = print o.fd x (g e)) (p : Prim) :
    Formatter.prim (setting o x) (sprim g p) = Formatter.prim o p := by
  have hl : primLf (setting o x) = primLf o := rfl
  cases p with
  | assign v e => simp only [sprim, Formatter.prim, hl, hp e]; rfl
  | code0 s => rfl
  | code1 a b c d r => cases r <;> simp only [sprim, Formatter.prim, hl, arg_print hp, Option.map_none, Option.map_some]
  | _ => simp only [sprim, Formatter.prim, hl, arg_print hp, points_print hp]

theorem prims_print (hp : ∀ e, print o.fd o.explicit e = print o.fd x (g e)) (base : Text) (ps : List Prim) :
    Formatter.prims (setting o x) base (ps.map (sprim g)) = Formatter.prims o base ps := by
  induction ps with
  | nil => rfl
  | cons p ps ih => simp only [List.map_cons, Formatter.prims, prim_print hp, ih]

mutual
theorem node_print (hp : ∀ e, print o.fd o.explicit e = print o.fd x (g e)) : ∀ (n : Node) (base : Text),
    Formatter.node (setting o x) base (node g n) = Formatter.node o base n
  | .ab i ns, base => by simp only [node, Formatter.node, nodes_print hp ns]; rfl
  | .sr a b i j ns, base => by simp only [node, Formatter.node, nodes_print hp ns]; rfl
  | .am n ps, base => by simp only [node, Formatter.node, prims_print hp]
  | .adc .., _ | .adr .., _ | .ado .., _ | .adp .., _ | .adMacro .., _ | .taUser .., _ | .taFunction .., _
  | .taDrill .., _ | .taFlash .., _ | .td .., _ | .tfUser .., _ | .tfPart .., _ | .tfFunction .., _ | .tfPolarity .., _
  | .tfSame .., _ | .tfDate .., _ | .tfSoftware .., _ | .tfProject .., _ | .tfMd5 .., _ | .toUser .., _ | .toN .., _
  | .toP .., _ | .toText .., _ | .toRot .., _ | .toHeight .., _ | .toMount .., _ | .toSup .., _ | .g04 .., _ | .lm .., _
  | .ln .., _ | .lp .., _ | .lr .., _ | .ls .., _ | .m00, _ | .m01, _ | .m02, _ | .as_ .., _ | .fs .., _ | .in_ .., _
  | .ip .., _ | .ir .., _ | .mi .., _ | .mo .., _ | .of_ .., _ | .sf .., _ | .dnn .., _ | .d01 .., _ | .d02 .., _
  | .d03 .., _ | .g .., _ => rfl
theorem nodes_print (hp : ∀ e, print o.fd o.explicit e = print o.fd x (g e)) : ∀ (ns : List Node) (base : Text),
    Formatter.nodes (setting o x) base (nodes g ns) = Formatter.nodes o base ns
  | [], _ => rfl
  | n :: ns, base => by simp only [nodes, Formatter.nodes, node_print hp n, nodes_print hp ns]
end

/-- A file and its rewritten form are the same in print. -/
theorem formats_print (hp : ∀ e, print o.fd o.explicit e = print o.fd x (g e)) (ns : List Node) :
    formats (setting o x) (nodes g ns) = formats o ns := by
  unfold formats; rw [nodes_print hp]

/-! ## Structure -/

theorem isBlock_node (n : Node) : isBlock (node g n) = isBlock n := by cases n <;> simp only [node] <;> rfl
theorem standalone_node (n : Node) : standalone (node g n) = standalone n := by cases n <;> simp only [node] <;> rfl
theorem node_isD {n : Node} (h : isD n = true) : node g n = n := by cases n <;> simp only [node] <;> cases h

theorem wfs_nodes {L M : Node → Prop} (hLM : ∀ n, L n → M (node g n)) {top : Bool} {ns : List Node} (h : WFs L top ns) :
    WFs M top (nodes g ns) := by
  induction h with
  | nil => simp only [nodes]; exact .nil
  | leaf a b c _ ih =>
    simp only [nodes]
    exact .leaf (hLM _ a) (by rw [isBlock_node, b]) (by rw [standalone_node, c]) ih
  | pair a b c d _ ih =>
    have e := node_isD (g := g) c
    have hb := hLM _ b
    have ha := hLM _ a
    rw [e] at hb
    simp only [node] at ha
    simp only [nodes, e, node]
    exact .pair ha hb c d ih
  | ab a _ _ ih ih' =>
    have ha := hLM _ a
    simp only [node] at ha
    simp only [nodes, node]
    exact .ab ha ih ih'
  | sr a _ _ ih ih' =>
    have ha := hLM _ a
    simp only [node] at ha
    simp only [nodes, node]
    exact .sr ha ih ih'

theorem mem_sprim {p : Prim} {e : Expr} (h : e ∈ primExprs (sprim g p)) : ∃ e' ∈ primExprs p, e = g e' := by
  cases p with
  | assign v e' => simp only [sprim, primExprs, List.mem_singleton] at h ⊢; exact ⟨e', rfl, h⟩
  | code0 s => simp [sprim, primExprs] at h
  | code1 a b c d r =>
    cases r <;>
      (simp only [sprim, primExprs, List.mem_append, List.mem_cons, List.not_mem_nil, or_false, Option.map_none, Option.map_some,
        Option.toList] at h ⊢; aesop)
  | code4 a b c d ps r =>
    simp only [sprim, primExprs, List.mem_append, List.mem_cons, List.not_mem_nil, or_false, List.mem_flatten, List.mem_map,
      List.map_map] at h ⊢
    rcases h with (h | h) | h
    · aesop
    · obtain ⟨l, ⟨q, hq, rfl⟩, hl⟩ := h
      simp only [Function.comp, List.mem_cons, List.not_mem_nil, or_false] at hl
      rcases hl with rfl | rfl
      · exact ⟨q.1, .inl (.inr ⟨_, ⟨q, hq, rfl⟩, by simp⟩), rfl⟩
      · exact ⟨q.2, .inl (.inr ⟨_, ⟨q, hq, rfl⟩, by simp⟩), rfl⟩
    · exact ⟨r, .inr rfl, h⟩
  | _ =>
    simp only [sprim, primExprs, List.mem_cons, List.not_mem_nil, or_false] at h ⊢
    aesop

theorem mem_exprs {n : Node} {e : Expr} (h : e ∈ exprs (node g n)) : ∃ e' ∈ exprs n, e = g e' := by
  cases n <;> simp only [node] at h <;> try (simp only [exprs, List.not_mem_nil] at h)
  rename_i name ps
  simp only [List.mem_flatten, List.mem_map, List.map_map, Function.comp] at h
  obtain ⟨_, ⟨p, hp, rfl⟩, he⟩ := h
  obtain ⟨e', h1, h2⟩ := mem_sprim he
  refine ⟨e', ?_, h2⟩
  simp only [exprs, List.mem_flatten, List.mem_map]
  exact ⟨_, ⟨p, hp, rfl⟩, h1⟩

theorem primShape_sprim {p : Prim} (h : PrimShape p) : PrimShape (sprim g p) := by
  cases p <;> simp only [sprim, PrimShape] at h ⊢ <;> try exact h
  simpa using h

/-- A rewritten node is printed well if its rewritten expressions are. -/
theorem nodeOk_node {rd : Text → Option Text} {n : Node} (h : NodeOk rd o n)
    (hw : ∀ e ∈ exprs n, WF 6 (g e) ∧ Consts (Readable o.fd) (g e)) : NodeOk rd (setting o x) (node g n) := by
  obtain ⟨h1, h2, h3, h4, h5⟩ := h
  cases n <;> simp only [node] <;> try exact ⟨h1, h2, h3, h4, h5⟩
  rename_i name ps
  refine ⟨⟨h1.1, ?_, ?_⟩, h2, trivial, trivial, ?_⟩
  · intro p hp
    obtain ⟨q, hq, rfl⟩ := List.mem_map.1 hp
    exact primShape_sprim (h1.2.1 q hq)
  · intro p hp e he
    obtain ⟨q, hq, rfl⟩ := List.mem_map.1 hp
    obtain ⟨e', he', rfl⟩ := mem_sprim he
    refine (hw e' ?_).1
    simp only [exprs, List.mem_flatten, List.mem_map]
    exact ⟨_, ⟨q, hq, rfl⟩, he'⟩
  · intro e he
    have : e ∈ exprs (node g (.am name ps)) := by simpa only [node] using he
    obtain ⟨e', he', rfl⟩ := mem_exprs this
    exact (hw e' he').2

theorem nodes_ne_nil {ns : List Node} (h : ns ≠ []) : nodes g ns ≠ [] := by
  cases ns with
  | nil => exact absurd rfl h
  | cons n ns => simp [nodes]

theorem nodes_append (a b : List Node) : nodes g (a ++ b) = nodes g a ++ nodes g b := by
  induction a with
  | nil => simp [nodes]
  | cons n a ih => simp [nodes, ih]

mutual
theorem bare_node (drop : GCode → Bool) : ∀ n : Node, bare drop (node g n) = nodes g (bare drop n)
  | .ab i ns => by simp only [node, bare, nodes, bareAll_nodes drop ns]
  | .sr a b i j ns => by simp only [node, bare, nodes, bareAll_nodes drop ns]
  | .am n ps => by simp only [node, bare, nodes, withFlag]
  | .g c s => by
    simp only [node, bare]
    split <;> simp only [nodes, node]
  | .adc .. | .adr .. | .ado .. | .adp .. | .adMacro .. | .taUser .. | .taFunction ..
  | .taDrill .. | .taFlash .. | .td .. | .tfUser .. | .tfPart .. | .tfFunction .. | .tfPolarity ..
  | .tfSame .. | .tfDate .. | .tfSoftware .. | .tfProject .. | .tfMd5 .. | .toUser .. | .toN ..
  | .toP .. | .toText .. | .toRot .. | .toHeight .. | .toMount .. | .toSup .. | .g04 .. | .lm ..
  | .ln .. | .lp .. | .lr .. | .ls .. | .m00 | .m01 | .m02 | .as_ .. | .fs .. | .in_ ..
  | .ip .. | .ir .. | .mi .. | .mo .. | .of_ .. | .sf .. | .dnn .. | .d01 .. | .d02 ..
  | .d03 .. => rfl
theorem bareAll_nodes (drop : GCode → Bool) : ∀ ns : List Node, bareAll drop (nodes g ns) = nodes g (bareAll drop ns)
  | [] => by simp only [nodes, bareAll]
  | n :: ns => by simp only [nodes, bareAll, bare_node drop n, bareAll_nodes drop ns, nodes_append]
end

end Verif.Rewrite
