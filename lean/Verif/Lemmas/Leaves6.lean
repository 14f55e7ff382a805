import Verif.Lemmas.Leaves5

/-!
# Reading back printed commands at the top of a file and in blocks
-/

namespace Verif.Grammar

open Verif.Text Verif.Fmt Verif.Peg Verif.Syntax Verif.Spec Verif.Formatter
open Verif.Math hiding P

/-! ## The commands that are not blocks -/

/-- The alternatives of `it` include all commands that are not blocks. -/
structure Dispatch (rd : Text → Option Text) (it : P (List Node)) : Prop where
  load : ∀ {a b t n r}, load ('%' :: a :: b :: t) = .ok n r → it ('%' :: a :: b :: t) = .ok [n] r
  prop : ∀ {a b t n r}, isBlank a = false → [a, b] ∈ propWords → properties ('%' :: a :: b :: t) = .ok n r →
    it ('%' :: a :: b :: t) = .ok [n] r
  attr : ∀ {a b t n r}, isBlank a = false → [a, b] ∈ attrWords → attributes rd ('%' :: a :: b :: t) = .ok n r →
    it ('%' :: a :: b :: t) = .ok [n] r
  ad : ∀ {t n r}, addAperture ('%' :: 'A' :: 'D' :: t) = .ok n r → it ('%' :: 'A' :: 'D' :: t) = .ok [n] r
  am : ∀ {t n r}, macro_ ('%' :: 'A' :: 'M' :: t) = .ok n r → it ('%' :: 'A' :: 'M' :: t) = .ok [n] r
  d : ∀ {t n r}, dCodes true t = .ok n r → it t = .ok [n] r
  g : ∀ {t ns r}, gCodes ('G' :: t) = .ok ns r → it ('G' :: t) = .ok ns r
  m : ∀ {t n r}, mCodes ('M' :: t) = .ok n r → it ('M' :: t) = .ok [n] r

theorem dispatch_root (rd : Text → Option Text) (k : Nat) : Dispatch rd (rootItem rd k) where
  load := root_load
  prop := root_prop
  attr := root_attr
  ad := root_ad
  am := root_am
  d := root_d
  g := root_g
  m := root_m

theorem apertureBlock_am (rd : Text → Option Text) (k : Nat) (t : Text) : apertureBlock rd k ('%' :: 'A' :: 'M' :: t) = .fail := by
  cases k with
  | zero => rfl
  | succ k => exact andThen_fail (ext_fail (by decide) (by decide))

theorem dispatch_body (rd : Text → Option Text) (k : Nat) : Dispatch rd (bodyItem rd (apertureBlock rd k)) where
  load := body_load
  prop := body_prop
  attr := body_attr
  ad := body_ad
  am := body_am (apertureBlock_am rd k _)
  d := body_d
  g := body_g
  m := body_m (apertureBlock_np (by decide) (by decide))

/-- The numbers of the node survive printing. -/
def NodeOk (rd : Text → Option Text) (o : Opts) (n : Node) : Prop :=
  Shape rd n ∧ NumsOk o n ∧ IrOk o n ∧ Regular n ∧ ∀ e ∈ exprs n, Consts (Readable o.fd) e

/-- The node is a macro. -/
def isMacro : Node → Bool
  | .am .. => true
  | _ => false

/-- The node is a G code other than a comment. -/
def isG : Node → Bool
  | .g .. => true
  | _ => false

theorem leaf_item {rd : Text → Option Text} {it : P (List Node)} (D : Dispatch rd it) {o : Opts} {n : Node}
    (h : NodeOk rd o n) (hb : isBlock n = false) (hm : isMacro n = false) (hd : isD n = false) (hg : isG n = false) (r : Text) :
    it (leaf o n ++ r) = .ok [n] (o.lf ++ r) := by
  obtain ⟨hs, hn, hi, hr, -⟩ := h
  cases n <;> simp only [isBlock, isMacro, isD, isG, Bool.true_eq_false] at hb hm hd hg
  case adc i d q => exact D.ad (adc_ok hs hn r)
  case adr i d q => exact D.ad (adr_ok hs hn r)
  case ado i d q => exact D.ad (ado_ok hs hn r)
  case adp i d q => exact D.ad (adp_ok hs hn r)
  case adMacro i d q => exact D.ad (adMacro_ok hs hn hr r)
  case taUser => exact D.attr (by decide) (by decide) (taUser_ok hs r)
  case taFunction => exact D.attr (by decide) (by decide) (taFunction_ok hs r)
  case taDrill => exact D.attr (by decide) (by decide) (taDrill_ok hs hn r)
  case taFlash => exact D.attr (by decide) (by decide) (taFlash_ok hs r)
  case td => exact D.attr (by decide) (by decide) (td_ok hs r)
  case tfUser => exact D.attr (by decide) (by decide) (tfUser_ok hs r)
  case tfPart => exact D.attr (by decide) (by decide) (tfPart_ok hs r)
  case tfFunction => exact D.attr (by decide) (by decide) (tfFunction_ok hs r)
  case tfPolarity => exact D.attr (by decide) (by decide) (tfPolarity_ok hs r)
  case tfSame => exact D.attr (by decide) (by decide) (tfSame_ok hs r)
  case tfDate => exact D.attr (by decide) (by decide) (tfDate_ok hs r)
  case tfSoftware a b c =>
    obtain ⟨ha, hb, hc⟩ := hr
    obtain ⟨a, rfl⟩ := Option.isSome_iff_exists.1 ha
    obtain ⟨b, rfl⟩ := Option.isSome_iff_exists.1 hb
    obtain ⟨c, rfl⟩ := Option.isSome_iff_exists.1 hc
    exact D.attr (by decide) (by decide) (tfSoftware_ok hs r)
  case tfProject a b c =>
    obtain ⟨ha, hb, hc⟩ := hr
    obtain ⟨a, rfl⟩ := Option.isSome_iff_exists.1 ha
    obtain ⟨b, rfl⟩ := Option.isSome_iff_exists.1 hb
    obtain ⟨c, rfl⟩ := Option.isSome_iff_exists.1 hc
    exact D.attr (by decide) (by decide) (tfProject_ok hs r)
  case tfMd5 => exact D.attr (by decide) (by decide) (tfMd5_ok hs r)
  case toUser => exact D.attr (by decide) (by decide) (toUser_ok hs r)
  case toN => exact D.attr (by decide) (by decide) (toN_ok hs r)
  case toP => exact D.attr (by decide) (by decide) (toP_ok hs r)
  case toText k v =>
    have := toText_ok (o := o) hs r
    cases k <;> exact D.attr (by decide) (by decide) this
  case toRot => exact D.attr (by decide) (by decide) (toRot_ok hn r)
  case toHeight => exact D.attr (by decide) (by decide) (toHeight_ok hn r)
  case toMount => exact D.attr (by decide) (by decide) (toMount_ok hs r)
  case toSup => exact D.attr (by decide) (by decide) (toSup_ok hs r)
  case g04 s =>
    have := g04_ok hs (r := o.lf ++ r)
    simp only [leaf, cmd, List.append_assoc, List.cons_append] at this ⊢
    exact D.g this
  case lm => exact D.load (load_ok hs hn r (by simp))
  case ln => exact D.load (load_ok hs hn r (by simp))
  case lp => exact D.load (load_ok hs hn r (by simp))
  case lr => exact D.load (load_ok hs hn r (by simp))
  case ls => exact D.load (load_ok hs hn r (by simp))
  case m00 => exact D.m (m_ok (o.lf ++ r)).1
  case m01 => exact D.m (m_ok (o.lf ++ r)).2.1
  case m02 => exact D.m (m_ok (o.lf ++ r)).2.2
  case as_ => exact D.prop (by decide) (by decide) (prop_ok hs hn hi r (by simp))
  case fs => exact D.prop (by decide) (by decide) (prop_ok hs hn hi r (by simp))
  case in_ => exact D.prop (by decide) (by decide) (prop_ok hs hn hi r (by simp))
  case ip => exact D.prop (by decide) (by decide) (prop_ok hs hn hi r (by simp))
  case ir => exact D.prop (by decide) (by decide) (prop_ok hs hn hi r (by simp))
  case mi => exact D.prop (by decide) (by decide) (prop_ok hs hn hi r (by simp))
  case mo => exact D.prop (by decide) (by decide) (prop_ok hs hn hi r (by simp))
  case of_ => exact D.prop (by decide) (by decide) (prop_ok hs hn hi r (by simp))
  case sf => exact D.prop (by decide) (by decide) (prop_ok hs hn hi r (by simp))

/-! ## Step and repeat headers -/

theorem doubleText_ok {t : Text} (h : NumOk t) {c : Char} {r : Text} (hc : isDigit c = false) (hd : c ≠ '.') :
    doubleText (t ++ c :: r) = .ok t (c :: r) := by
  obtain ⟨⟨a, u, rfl, ha⟩, ⟨q, hq⟩, _⟩ := h
  have := hq (c :: r) (numEnd_cons hc hd)
  have e : skip ((a :: u) ++ c :: r) = (a :: u) ++ c :: r := skip_of_head ha
  have l : ((a :: u) ++ c :: r).length - (c :: r).length = (a :: u).length := by simp only [List.length_append]; omega
  simp only [doubleText, e, this, l, List.take_left]

theorem srOpen_all {o : Opts} {x y i j : Text} (hx : NumOk x) (hy : NumOk y) (hi : NumOk i) (hj : NumOk j) (r : Text) :
    srOpen (srOpenText o (some x) (some y) (some i) (some j) ++ r) = .ok (some x, some y, some i, some j) (o.lf ++ r) := by
  pg [srOpen, srOpenText, ext, doubleText_ok hx, doubleText_ok hy, doubleText_ok hi, doubleText_ok hj]

theorem srOpen_none (o : Opts) (r : Text) :
    srOpen (srOpenText o none none none none ++ r) = .ok (none, none, none, none) (o.lf ++ r) := by
  pg [srOpen, srOpenText, ext]

theorem srOpen_ok {o : Opts} {rd : Text → Option Text} {x y i j : Option Text} {ns : List Node}
    (h : Shape rd (.sr x y i j ns)) (hr : Regular (.sr x y i j ns)) (r : Text) :
    srOpen (srOpenText o x y i j ++ r) = .ok (x, y, i, j) (o.lf ++ r) := by
  rcases hr with ⟨rfl, rfl, rfl, rfl⟩ | ⟨a, b, c, d⟩
  · exact srOpen_none o r
  · obtain ⟨x, rfl⟩ := Option.isSome_iff_exists.1 a
    obtain ⟨y, rfl⟩ := Option.isSome_iff_exists.1 b
    obtain ⟨i, rfl⟩ := Option.isSome_iff_exists.1 c
    obtain ⟨j, rfl⟩ := Option.isSome_iff_exists.1 d
    exact srOpen_all (h.1 x rfl) (h.2.1 y rfl) (h.2.2.1 i rfl) (h.2.2.2 j rfl) r

end Verif.Grammar
