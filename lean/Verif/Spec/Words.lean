import Verif.Model.Peg

/-!
# The words the Gerber format has for the values of standard attributes, and the characters of names
-/

namespace Verif.Spec
open Verif.Peg (Text)

/-- The functions of apertures: drills, pads, other copper, components, and other data. -/
def apertureFunctions : List Text :=
  [t!"ViaDrill", t!"BackDrill", t!"ComponentDrill", t!"MechanicalDrill", t!"CastellatedDrill", t!"OtherDrill",
   t!"ComponentPad", t!"SMDPad", t!"BGAPad", t!"ConnectorPad", t!"HeatsinkPad", t!"ViaPad", t!"TestPad",
   t!"CastellatedPad", t!"FiducialPad", t!"ThermalReliefPad", t!"WasherPad", t!"AntiPad", t!"OtherPad",
   t!"Conductor", t!"EtchedComponent", t!"NonConductor", t!"CopperBalancing", t!"Border", t!"OtherCopper",
   t!"ComponentMain", t!"ComponentOutline", t!"ComponentPin", t!"Profile", t!"Material", t!"NonMaterial", t!"Other"]

/-- What part of a panel a file describes. -/
def panelParts : List Text := [t!"Single", t!"Array", t!"FabricationPanel", t!"Coupon", t!"Other"]

/-- The functions of files. -/
def layerFunctions : List Text :=
  [t!"Copper", t!"Plated", t!"NonPlated", t!"Profile", t!"Soldermask", t!"Legend", t!"Component", t!"Paste", t!"Glue",
   t!"Carbonmask", t!"Goldmask", t!"Heatsinkmask", t!"Peelablemask", t!"Silvermask", t!"Tinmask", t!"Depthrout",
   t!"Vcut", t!"Viafill", t!"Pads", t!"Other", t!"Drillmap", t!"FabricationDrawing", t!"Vcutmap", t!"AssemblyDrawing",
   t!"ArrayDrawing", t!"OtherDrawing"]

/-- How components are mounted. -/
def mountTypes : List Text := [t!"SMD", t!"TH", t!"Pressfit", t!"Fiducial", t!"Other"]

/-- Characters of names. -/
def NameChar (c : Char) : Prop :=
  c = '.' ∨ c = '_' ∨ ('a' ≤ c ∧ c ≤ 'z') ∨ ('A' ≤ c ∧ c ≤ 'Z') ∨ ('0' ≤ c ∧ c ≤ '9')

/-- First characters of the names that users give to attributes. -/
def UserNameStart (c : Char) : Prop := c = '_' ∨ ('a' ≤ c ∧ c ≤ 'z') ∨ ('A' ≤ c ∧ c ≤ 'Z') ∨ c = '$'

end Verif.Spec
