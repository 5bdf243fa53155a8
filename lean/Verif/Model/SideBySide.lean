import Verif.Model.TextRuns
import Verif.Model.CutRun
import Verif.Model.DeviceRun
import Verif.Model.FormatRun
import Verif.Model.BandRun
import Verif.Model.KappaRun

/-! # Runs of the command line tools at the same time, /repo/src/teflow/interface.py

Every tool reads its files, computes, and then writes its output files one after the other (`np.savetxt(fp, ...)` at interface.py:205 and
`open(..., 'w')` at interface.py:428, 1006, 1244).  Here a run is a process that does one thing at a time: it reads one file, or it computes,
or it opens an output file (which empties it), or it writes one character.  A scheduler decides which process is next.  A process that is never
scheduled again has been killed (the operating system may have written any part of what the process has produced).  Several processes that write
to the same file are not modelled faithfully (each would have its own position in the file); no theorem is about them. -/

namespace TEflow.SideBySide

open Interface TableFile ToolRuns

/-- a run of a tool: the files it reads, and what it makes of their contents: the texts it writes, in order, and how it ends -/
structure Tool (ρ : Type) where
  inputs : List (List Char)
  effect : Files → List (List Char × List Char) × ρ

/-- what a process does to the files -/
inductive Act where
  | create (name : List Char)
  | put (name : List Char) (c : Char)

/-- the effect: `open(name, 'w')` leaves an empty file, a character goes to the end -/
def Act.on (fs : Files) : Act → Files
  | .create n => fs.write n []
  | .put n c => fs.write n ((fs n).getD [] ++ [c])

/-- the acts that write texts -/
def actsOf (writes : List (List Char × List Char)) : List Act := (writes.map fun p => .create p.1 :: p.2.map (.put p.1)).flatten

/-- a process: still reading, with what it has read, or writing -/
inductive Proc (ρ : Type) where
  | reading (todo : List (List Char)) (seen : Files)
  | writing (todo : List Act) (result : ρ)

/-- a process at its beginning -/
def Tool.start {ρ : Type} (t : Tool ρ) : Proc ρ := .reading t.inputs fun _ => none

/-- one step of a process -/
def Tool.step {ρ : Type} (t : Tool ρ) (fs : Files) : Proc ρ → Files × Proc ρ
  | .reading [] seen => (fs, .writing (actsOf (t.effect seen).1) (t.effect seen).2)
  | .reading (n :: todo) seen => (fs, .reading todo fun m => if m = n then fs n else seen m)
  | .writing [] r => (fs, .writing [] r)
  | .writing (a :: todo) r => (a.on fs, .writing todo r)

/-- how a process has ended, if it has -/
def Proc.result? {ρ : Type} : Proc ρ → Option ρ
  | .writing [] r => some r
  | _ => none

section
variable {ι : Type} [DecidableEq ι] {ρ : ι → Type}

/-- the files and all processes -/
structure System (ρ : ι → Type) where
  files : Files
  proc : (i : ι) → Proc (ρ i)

/-- all processes at their beginning -/
def System.init (t : (i : ι) → Tool (ρ i)) (fs : Files) : System ρ := ⟨fs, fun i => (t i).start⟩

/-- the process `i` does its next step -/
def System.step (t : (i : ι) → Tool (ρ i)) (s : System ρ) (i : ι) : System ρ :=
  ⟨((t i).step s.files (s.proc i)).1, Function.update s.proc i ((t i).step s.files (s.proc i)).2⟩

/-- a schedule: the processes in the order of their steps -/
def System.run (t : (i : ι) → Tool (ρ i)) (s : System ρ) (schedule : List ι) : System ρ := schedule.foldl (System.step t) s

end

/-! ## The tools -/

/-- a tool that writes one file when everything else is done -/
def oneFile {ε : Type} (output : List Char) : Except ε (List Char) → List (List Char × List Char) × Except ε Unit
  | .error e => ([], .error e)
  | .ok text => ([(output, text)], .ok ())

/-- `tef-interp`, interface.py:214-315; an existing output file is read for the sampling points -/
def interpTool (float : List Char → Except PyErr Num) (argsort : List ℚ → List Nat)
    (interp : List Char → Option ℚ → List ℚ → List ℚ → List ℚ → Except PyErr (List ℚ)) (info : List Char) (o : InterpOptions) :
    Tool (Except PyErr Unit) where
  inputs := [o.inputfile, o.output]
  effect fs := oneFile o.output (interpText float argsort interp info o fs)

/-- `tef-mixing`, interface.py:438-469 -/
def mixTool (float : List Char → Except PyErr Num) (info : List Char) (o : MixOptions) : Tool (Except PyErr (List Char)) where
  inputs := o.inputfile
  effect fs :=
    match mixedData float o fs with
    | .error e => ([], .error e)
    | .ok a =>
      if o.outputfile ≠ [] then
        match saveRows a with
        | .error e => ([(o.outputfile, [])], .error e)
        | .ok rows =>
          match toFile (fixed 4) o.bare false (.rows rows) "Mixed datafiles".toList info (.names o.labels) with
          | .error e => ([], .error e)
          | .ok text => ([(o.outputfile, text)], .ok [])
      else
        match screenRows a with
        | .error e => ([], .error e)
        | .ok rows => ([], .ok (screenText o.labels rows))

/-- `tef-mixing --extend`, interface.py:367-437 -/
def extendTool (info : List Char) (o : TextRuns.ExtendOptions) : Tool (Except PyErr (List Char)) where
  inputs := o.inputfile
  effect fs :=
    match o.inputfile.mapM (TextRuns.readLines fs) with
    | .error e => ([], .error e)
    | .ok files =>
      if o.outputfile ≠ [] then ([(o.outputfile, TextRuns.textOf (o.header info ++ extend o.raw o.padding files))], .ok [])
      else ([], .ok (TextRuns.shown o.labels (extend o.raw o.padding files)))

/-- `tef-refine`, interface.py:966-1016 -/
def refineTool (int : List Char → Except PyErr Int) (info : List Char) (o : TextRuns.RefineOptions) : Tool (Except PyErr Unit) where
  inputs := [o.inputfile]
  effect fs :=
    match fs o.inputfile with
    | none => ([], .error .ioError)
    | some text =>
      match TextRuns.usecols int o.column with
      | .error e => ([], .error e)
      | .ok cols =>
        let r := refine ("# Refined data - ".toList ++ info) o.bare cols (linesOf text)
        ([(o.output, TextRuns.textOf r.1)], r.2)

/-- `tef-cutoff`, interface.py:873-963 -/
def cutTool {V : Type} (env : CutRun.Env V) (title : List Char) (o : CutRun.CutOptions V) : Tool (Except PyErr Unit) where
  inputs := [o.inputfile]
  effect fs := oneFile o.output (CutRun.cutText env title o fs)

/-- `tef-ztdev`, interface.py:472-533 -/
noncomputable def ztdevTool (env : DeviceRun.Env) (title : List Char) (o : DeviceRun.ZtOptions) : Tool (Except PyErr Unit) where
  inputs := [o.inputfile]
  effect fs := oneFile o.output (DeviceRun.tableText env (DeviceRun.ztRows env o.yita) o.bare title DeviceRun.ztLabels (fs o.inputfile))

/-- `tef-engout`, interface.py:535-628 -/
noncomputable def engoutTool (env : DeviceRun.Env) (title : List Char) (o : DeviceRun.EngOptions) : Tool (Except PyErr Unit) where
  inputs := [o.inputfile]
  effect fs := oneFile o.output (DeviceRun.tableText env (DeviceRun.engRows env o) o.bare title DeviceRun.engLabels (fs o.inputfile))

/-- `tef-format`, interface.py:715-870; an existing output file is read for the temperatures, and `more` are the files named by the configuration -/
def formatTool (env : FormatRun.Env) (info : List Char) (o : FormatRun.Options) (more : List (List Char)) : Tool (Except PyErr Unit) where
  inputs := o.inputfile :: o.output :: more
  effect fs := oneFile o.output (FormatRun.formatText env info o fs)

/-- `tef-band`, interface.py:1019-1148 -/
noncomputable def bandTool (E : BandRun.Env) (o : BandRun.Options) : Tool (Except KappaRun.RunErr Unit) where
  inputs := [o.inputfile]
  effect fs := oneFile o.output (BandRun.text E o fs)

/-- the texts that are written before the first error -/
def untilError : List (List Char × Except PyErr (List Char)) → List (List Char × List Char) × Except KappaRun.RunErr Unit
  | [] => ([], .ok ())
  | (_, .error e) :: _ => ([], .error (.py e))
  | (name, .ok t) :: rest => ((name, t) :: (untilError rest).1, (untilError rest).2)

/-- `tef-kappa`, interface.py:1151-1246; `more` are the files named by the configuration -/
noncomputable def kappaTool (E : KappaRun.Env) (o : KappaRun.Options) (more : List (List Char)) : Tool (Except KappaRun.RunErr Unit) where
  inputs := o.inputfile :: more
  effect fs :=
    match KappaRun.parseKappa E o.specify fs o.inputfile with
    | .error e => ([], .error e)
    | .ok r => untilError (KappaRun.writes E o r)

end TEflow.SideBySide
