import Verif.Model.Formatter
import Verif.Model.Grammar

/-!
# The command `pygerber gerber format` (console/gerber.py 433-501)

The disk is a map from files to contents.  Paths are resolved to files by the operating system, so two different paths
can name the same file.  `GerberFile.from_file` reads the source (gerber/api/_gerber_file.py 429-454), then the output is
opened with mode `"w"`, which empties it, and only then the source is parsed (`file.format` calls `_get_ast`, 704-706,
576-581) and printed into the output piece by piece (formatter.py 335-342, 405-406).  Python writes buffered text at times
of its own choice, so a process that is killed leaves some beginning of the text.
Simplifications: the contents of files are texts; reading does not translate line ends; the options of the formatter are
given; files that can be read can be written.
-/

namespace Verif.FormatCommand

open Verif.Peg (Text)
open Verif.Syntax (Node)
open Verif.Grammar (parseCode Outcome)
open Verif.Formatter (Options formats build)

/-- The contents of the files that exist. -/
abbrev Disk (File : Type) := File → Option Text

/-- `path.open("w")` and writing. -/
def Disk.put {File : Type} [DecidableEq File] (disk : Disk File) (file : File) (content : Text) : Disk File :=
  fun f => if f = file then some content else disk f

/-- How the command ends. -/
inductive Ending
  | done | fileNotFound | parseException | validationError
  deriving DecidableEq, Repr

/-- console/gerber.py 496-501: the disk after the command, and how it ended. -/
def formatCommand {File : Type} [DecidableEq File] (readDate : Text → Option Text) (options : Options) (source output : File)
    (disk : Disk File) : Disk File × Ending :=
  match disk source with
  | none => (disk, .fileNotFound)
  | some text =>
    match parseCode readDate text with
    | .file nodes => (disk.put output (formats (build options) nodes), .done)
    | .parseException => (disk.put output [], .parseException)
    | .validationError => (disk.put output [], .validationError)

/-- The disks that a process killed at any moment can leave. -/
inductive Leaves {File : Type} [DecidableEq File] (readDate : Text → Option Text) (options : Options) (source output : File)
    (disk : Disk File) : Disk File → Prop
  | nothing : Leaves readDate options source output disk disk
  | opened {text : Text} (read : disk source = some text) : Leaves readDate options source output disk (disk.put output [])
  | writing {text part : Text} {nodes : List Node} (read : disk source = some text) (parsed : parseCode readDate text = .file nodes)
    (written : part <+: formats (build options) nodes) : Leaves readDate options source output disk (disk.put output part)

end Verif.FormatCommand
