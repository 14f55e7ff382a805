import Verif.Model.View
import Verif.Model.Compiler
import Verif.Spec.Commands

/-!
# Layout does not matter to the visitors
-/

namespace Verif.View

open Verif.Peg Verif.Syntax Verif.Visitor Verif.Spec

/-- Commands without an effect. -/
def Idle (drop : GCode → Bool) : Prop := ∀ c, drop c = true → c = .g54 ∨ c = .g55

theorem ok_andThen (s : VState) (f : VState → Out) : (Out.ok s).andThen f = f s := by
  simp [Out.ok, Out.andThen]

mutual
/-- A node without its layout is the same node to the visitors, or it is dropped and has no effect. -/
theorem bare_node {drop : GCode → Bool} (hd : Idle drop) : ∀ (m : Node) (n : Nat),
    (bare drop m = [] ∧ (cmd n m).2 = n ∧ ∀ s, visit s (cmd n m).1 = .ok s) ∨
    ∃ m', bare drop m = [m'] ∧ (cmd n m').2 = (cmd n m).2 ∧ ∀ s, visit s (cmd n m').1 = visit s (cmd n m).1
  | .ab i ns, n => by
    right
    refine ⟨.ab i (bareAll drop ns), by simp [bare], ?_, ?_⟩
    · simpa [cmd] using (bare_nodes hd ns n).1
    · intro s
      simp only [cmd, visit]
      congr 2
      funext s'
      exact (bare_nodes hd ns n).2 s'
  | .sr x y i j ns, n => by
    right
    refine ⟨.sr x y i j (bareAll drop ns), by simp [bare], ?_, ?_⟩
    · simpa [cmd] using (bare_nodes hd ns (n + 1)).1
    · intro s
      simp only [cmd, visit]
      congr 2
      funext s'
      exact (bare_nodes hd ns (n + 1)).2 s'
  | .g c b, n => by
    by_cases h : drop c = true
    · left
      refine ⟨by simp [bare, h], by simp [cmd], ?_⟩
      intro s
      rcases hd c h with rfl | rfl <;> rfl
    · right
      exact ⟨.g c true, by simp [bare, h], by simp [cmd], fun s => by simp [cmd, leaf]⟩
  | .dnn i b, n => .inr ⟨.dnn i true, by simp [bare, withFlag], by simp [cmd], fun s => by simp [cmd, leaf]⟩
  | .d01 x y i j b, n => .inr ⟨.d01 x y i j true, by simp [bare, withFlag], by simp [cmd], fun s => by simp [cmd, leaf]⟩
  | .d02 x y b, n => .inr ⟨.d02 x y true, by simp [bare, withFlag], by simp [cmd], fun s => by simp [cmd, leaf]⟩
  | .d03 x y b, n => .inr ⟨.d03 x y true, by simp [bare, withFlag], by simp [cmd], fun s => by simp [cmd, leaf]⟩
  | .am .., _ | .adc .., _ | .adr .., _ | .ado .., _ | .adp .., _ | .adMacro .., _ | .taUser .., _ | .taFunction .., _
  | .taDrill .., _ | .taFlash .., _ | .td .., _ | .tfUser .., _ | .tfPart .., _ | .tfFunction .., _ | .tfPolarity .., _
  | .tfSame .., _ | .tfDate .., _ | .tfSoftware .., _ | .tfProject .., _ | .tfMd5 .., _ | .toUser .., _ | .toN .., _
  | .toP .., _ | .toText .., _ | .toRot .., _ | .toHeight .., _ | .toMount .., _ | .toSup .., _ | .g04 .., _ | .lm .., _
  | .ln .., _ | .lp .., _ | .lr .., _ | .ls .., _ | .m00, _ | .m01, _ | .m02, _ | .as_ .., _ | .fs .., _ | .in_ .., _
  | .ip .., _ | .ir .., _ | .mi .., _ | .mo .., _ | .of_ .., _ | .sf .., _ =>
    .inr ⟨_, by simp only [bare, withFlag], rfl, fun _ => rfl⟩
/-- The same for several nodes. -/
theorem bare_nodes {drop : GCode → Bool} (hd : Idle drop) : ∀ (ms : List Node) (n : Nat),
    (cmds n (bareAll drop ms)).2 = (cmds n ms).2 ∧
      ∀ s, visitAll s (cmds n (bareAll drop ms)).1 = visitAll s (cmds n ms).1
  | [], n => ⟨rfl, fun _ => rfl⟩
  | m :: ms, n => by
    rcases bare_node hd m n with ⟨h1, h2, h3⟩ | ⟨m', h1, h2, h3⟩
    · obtain ⟨i1, i2⟩ := bare_nodes hd ms n
      simp only [bareAll, h1, List.nil_append, cmds, h2]
      refine ⟨i1, fun s => ?_⟩
      rw [i2 s]
      simp only [visitAll, h3, ok_andThen]
    · obtain ⟨i1, i2⟩ := bare_nodes hd ms (cmd n m).2
      simp only [bareAll, h1, List.cons_append, List.nil_append, cmds, h2]
      refine ⟨i1, fun s => ?_⟩
      simp only [visitAll, h3, i2]
end

/-- The same for the nodes of a file. -/
theorem bare_file {drop : GCode → Bool} (hd : Idle drop) (ignore : Bool) : ∀ (ms : List Node) (n : Nat) (s : VState),
    onFile ignore s (cmds n (bareAll drop ms)).1 = onFile ignore s (cmds n ms).1
  | [], n, s => rfl
  | m :: ms, n, s => by
    rcases bare_node hd m n with ⟨h1, h2, h3⟩ | ⟨m', h1, h2, h3⟩
    · simp only [bareAll, h1, List.nil_append, cmds, h2]
      rw [bare_file hd ignore ms n s]
      simp only [onFile, h3, Out.ok, List.nil_append]
    · simp only [bareAll, h1, List.cons_append, List.nil_append, cmds, h2]
      simp only [onFile, h3, bare_file hd ignore ms]

end Verif.View
