import Verif.DDP.Model
import Verif.FMPC.Model
import Verif.CGMRES.Model

/-!
# Text files written by the solvers and their readers

`dumpTraceDataList` of both solvers, the files written by `CgmresSolver::run`, the result files of the tests, and what the scripts
nmpc_ddp/scripts/plotDDPTraceData.py and nmpc_cgmres/scripts/plotCgmresData.py make of them.  A text is a list of characters.

Library code is modelled after its documentation: `operator<<` for numbers is a parameter (`NumFmt`), Eigen's matrix output pads every
coefficient to the width of the widest one, `numpy.genfromtxt` splits lines at the delimiter.  Opening the file is not modelled, nor
are the measured durations, which may be any numbers.
-/

namespace Nmpc.Text

abbrev Str := List Char

/-! ## Writing -/

/-- Output and input of floating point numbers; `round` is the loss of precision (`std::ofstream` prints six digits). -/
structure NumFmt (α : Type) where
  print : α → Str
  read : Str → Option α
  round : α → α

/-- Characters that mean something to the readers. -/
def special : Str := [' ', '\n', '\r', '#', ',']

/-- What is required of the output of numbers. -/
structure NumFmt.Ok {α : Type} (F : NumFmt α) : Prop where
  nonempty : ∀ v, F.print v ≠ []
  clean : ∀ v, ∀ c ∈ F.print v, c ∉ special
  read_print : ∀ v, F.read (F.print v) = some (F.round v)

/-- `operator<<` for the integers that occur (counters and sizes, never negative). -/
def printNat (k : ℕ) : Str := Nat.toDigits 10 k

/-- `trace_data_list_` with the durations (DDPSolver.h 179-216), which the model of the solver leaves out. -/
structure TimedDDP (α : Type) where
  data : DDP.Trace α
  derivative : α
  backward : α
  forward : α

/-- `DDPSolver::dumpTraceDataList` (DDPSolver.hpp 563-598). -/
def dumpDDP {α : Type} (F : NumFmt α) (traces : List (TimedDDP α)) : Str :=
  "iter ".toList ++ "cost ".toList ++ "lambda ".toList ++ "dlambda ".toList ++ "alpha ".toList ++ "k_rel_norm ".toList ++
  "cost_update_actual ".toList ++ "cost_update_expected ".toList ++ "cost_update_ratio ".toList ++ "duration_derivative ".toList ++
  "duration_backward ".toList ++ "duration_forward".toList ++ "\n".toList ++
  traces.flatMap fun d =>
    printNat d.data.iter ++ " ".toList ++ F.print d.data.cost ++ " ".toList ++ F.print d.data.lambda ++ " ".toList ++
    F.print d.data.dlambda ++ " ".toList ++ F.print d.data.alpha ++ " ".toList ++ F.print d.data.kRelNorm ++ " ".toList ++
    F.print d.data.actual ++ " ".toList ++ F.print d.data.expected ++ " ".toList ++ F.print d.data.ratio ++ " ".toList ++
    F.print d.derivative ++ " ".toList ++ F.print d.backward ++ " ".toList ++ F.print d.forward ++ "\n".toList

/-- `trace_data_list_` with the durations (FmpcSolver.h 232-251). -/
structure TimedFMPC (α : Type) where
  data : FMPC.Trace α
  coeff : α
  backward : α
  forward : α
  update : α

/-- `FmpcSolver::dumpTraceDataList` (FmpcSolver.hpp 260-283). -/
def dumpFMPC {α : Type} (F : NumFmt α) (traces : List (TimedFMPC α)) : Str :=
  "iter ".toList ++ "kkt_error ".toList ++ "duration_coeff ".toList ++ "duration_backward ".toList ++ "duration_forward ".toList ++
  "duration_update".toList ++ "\n".toList ++
  traces.flatMap fun d =>
    printNat d.data.iter ++ " ".toList ++ F.print d.data.kktError ++ " ".toList ++ F.print d.coeff ++ " ".toList ++
    F.print d.backward ++ " ".toList ++ F.print d.forward ++ " ".toList ++ F.print d.update ++ "\n".toList

/-- `std::setw`: blanks on the left up to the given width. -/
def pad (w : ℕ) (tok : Str) : Str := List.replicate (w - tok.length) ' ' ++ tok

/-- Output of a vector by Eigen with an `IOFormat` without flags: all coefficients padded to the width of the widest, `sep` between
them, nothing before and after. -/
def fmtVec (sep : Str) (toks : List Str) : Str :=
  sep.intercalate (toks.map (pad ((toks.map List.length).foldr max 0)))

/-- Tokens of the coefficients of a vector. -/
def tokens {α : Type} {n : ℕ} (F : NumFmt α) (x : Vec n α) : List Str := (List.ofFn x).map F.print

/-- `cgmres_x.dat` (CgmresSolver.cpp 99 with `vecfmt_dump_`, CgmresSolver.h 108). -/
def dumpX {α : Type} {n m : ℕ} (F : NumFmt α) (ds : List (Cgmres.Dump n m α)) : Str :=
  ds.flatMap fun d => F.print d.t ++ ", ".toList ++ fmtVec ", ".toList (tokens F d.x) ++ "\n".toList

/-- `cgmres_u.dat` (CgmresSolver.cpp 100). -/
def dumpU {α : Type} {n m : ℕ} (F : NumFmt α) (ds : List (Cgmres.Dump n m α)) : Str :=
  ds.flatMap fun d => F.print d.t ++ ", ".toList ++ fmtVec ", ".toList (tokens F d.u) ++ "\n".toList

/-- `cgmres_err.dat` (CgmresSolver.cpp 101). -/
def dumpErr {α : Type} {n m : ℕ} (F : NumFmt α) (ds : List (Cgmres.Dump n m α)) : Str :=
  ds.flatMap fun d => F.print d.t ++ ", ".toList ++ F.print d.err ++ "\n".toList

/-- The line of a result file: scalars and vectors (`x.transpose()` with Eigen's default format), blanks between. -/
def row (cells : List (List Str)) : Str := " ".toList.intercalate (cells.map (fmtVec " ".toList)) ++ "\n".toList

/-- One line of the result of the bipedal test. -/
structure BipedalRow (α : Type) where
  t : α
  x : Vec 2 α
  zmp : α
  refZmp : α
  omega2 : α
  iter : ℕ

/-- TestDDPBipedal.cpp 242, 259-260. -/
def resultBipedal {α : Type} (F : NumFmt α) (ls : List (BipedalRow α)) : Str :=
  "time com_pos com_vel planned_zmp ref_zmp omega^2 iter".toList ++ "\n".toList ++
  ls.flatMap fun l => row [[F.print l.t], tokens F l.x, [F.print l.zmp], [F.print l.refZmp], [F.print l.omega2], [printNat l.iter]]

/-- One line of the result of the vertical motion test. -/
structure VerticalRow (α : Type) where
  t : α
  x : Vec 2 α
  force : α
  refPos : α
  contacts : ℕ
  iter : ℕ

/-- TestDDPVerticalMotion.cpp 289, 307-309. -/
def resultVertical {α : Type} (F : NumFmt α) (ls : List (VerticalRow α)) : Str :=
  "time pos vel force ref_pos num_contact iter".toList ++ "\n".toList ++
  ls.flatMap fun l => row [[F.print l.t], tokens F l.x, [F.print l.force], [F.print l.refPos], [printNat l.contacts], [printNat l.iter]]

/-- One line of the result of the centroidal motion test; `durations` are the eight durations in the order of the file. -/
structure CentroidalRow (α : Type) where
  t : α
  x : Vec 9 α
  force : Vec 3 α
  refPos : Vec 3 α
  iter : ℕ
  durations : Vec 8 α

/-- The header of the centroidal motion result (TestDDPCentroidalMotion.cpp 302-306). -/
def headerCentroidal : Str :=
  ("time pos_x pos_y pos_z linear_momentum_x linear_momentum_y linear_momentum_z angular_momentum_x " ++
   "angular_momentum_y angular_momentum_z force_x force_y force_z ref_pos_x ref_pos_y ref_pos_z iter " ++
   "duration_setup duration_opt duration_derivative duration_backward duration_forward duration_Q duration_reg " ++
   "duration_gain").toList

/-- The values of one line (TestDDPCentroidalMotion.cpp 326-331). -/
def cellsCentroidal {α : Type} (F : NumFmt α) (l : CentroidalRow α) : List (List Str) :=
  [[F.print l.t], tokens F l.x, tokens F l.force, tokens F l.refPos, [printNat l.iter]] ++ (tokens F l.durations).map fun s => [s]

/-- TestDDPCentroidalMotion.cpp 302-306, 326-331. -/
def resultCentroidal {α : Type} (F : NumFmt α) (ls : List (CentroidalRow α)) : Str :=
  headerCentroidal ++ "\n".toList ++ ls.flatMap fun l => row (cellsCentroidal F l)

/-- One line of the result of the cart-pole simulations. -/
structure CartPoleRow (α : Type) where
  t : α
  x : Vec 4 α
  u : Vec 1 α
  refPos : α
  dist : Vec 1 α

/-- TestDDPCartPole.cpp 316, 339-340 and TestFmpcCartPole.cpp 337, 365-366. -/
def resultCartPole {α : Type} (F : NumFmt α) (ls : List (CartPoleRow α)) : Str :=
  "time pos theta vel omega force ref_pos disturbance".toList ++ "\n".toList ++
  ls.flatMap fun l => row [[F.print l.t], tokens F l.x, tokens F l.u, [F.print l.refPos], tokens F l.dist]

/-- One line of the result of the oscillator test. -/
structure OscillatorRow (α : Type) where
  t : α
  x : Vec 2 α
  u : Vec 1 α
  iter : ℕ
  duration : α
  kktError : α

/-- TestFmpcOscillator.cpp 165, 183-185. -/
def resultOscillator {α : Type} (F : NumFmt α) (ls : List (OscillatorRow α)) : Str :=
  "time x[0] x[1] u[0] mpc_iter computation_time kkt_error".toList ++ "\n".toList ++
  ls.flatMap fun l => row [[F.print l.t], tokens F l.x, tokens F l.u, [printNat l.iter], [F.print l.duration], [F.print l.kktError]]

/-! ## Reading -/

/-- Characters removed by `strip(" \r\n")`. -/
def isBlank (c : Char) : Bool := c = ' ' || c = '\r' || c = '\n'

/-- `line.strip(" \r\n")`. -/
def strip (l : Str) : Str := ((l.dropWhile isBlank).reverse.dropWhile isBlank).reverse

/-- `line.split()`: the words of a line (tabs do not occur). -/
def words (l : Str) : List Str := (l.splitOn ' ').filter fun w => w ≠ []

/-- `LineSplitter`: the comment is cut off, the rest stripped; an empty line has no values, otherwise the line is split at the
delimiter; without a delimiter it is split into words. -/
def splitLine (delim : Option Char) (l : Str) : List Str :=
  let l := strip (l.takeWhile fun c => c ≠ '#')
  if l = [] then [] else
    match delim with
    | some c => l.splitOn c
    | none => words l

/-- The values of the lines that are not empty. -/
def valueLines (delim : Option Char) (text : Str) : List (List Str) :=
  ((text.splitOn '\n').map (splitLine delim)).filter fun r => r ≠ []

/-- What `NameValidator` does to a name: characters outside of identifiers are dropped, three names are extended.
(Renaming of names that occur twice is not modelled; the theorems show that there are none.) -/
def fixName (s : Str) : Str :=
  let q := s.filter fun c => ¬ c ∈ "~!@#$%^&*()-=+~\\|]}[{';: /?.>,<".toList
  if q = "return".toList ∨ q = "file".toList ∨ q = "print".toList then q ++ "_".toList else q

/-- `genfromtxt(path, delimiter=…, names=True)`: names and rows; `none` is `ValueError` (some row has another number of values) or an
empty file.  (A header behind a comment sign, which the real function accepts, does not occur.) -/
def readNamed (delim : Option Char) (text : Str) : Option (List Str × List (List Str)) :=
  match valueLines delim text with
  | [] => none
  | names :: rows => if rows.all fun r => r.length = names.length then some (names.map fixName, rows) else none

/-- `genfromtxt(path, delimiter=…)`. -/
def readPlain (delim : Option Char) (text : Str) : Option (List (List Str)) :=
  match valueLines delim text with
  | [] => none
  | r :: rows => if rows.all fun q => q.length = r.length then some (r :: rows) else none

/-- `trace_data_list[key]`: `none` if there is no such name. -/
def column (key : Str) (t : List Str × List (List Str)) : Option (List Str) :=
  match t.1.findIdx? (fun s => s = key) with
  | none => none
  | some j => t.2.mapM fun r => r[j]?

/-- `float(token)`, which ignores blanks around the number. -/
def readNum {α : Type} (F : NumFmt α) (tok : Str) : Option α := F.read (strip tok)

/-- The integer a token stands for, `none` if it contains something else than digits. -/
def readNat (tok : Str) : Option ℕ :=
  if tok ≠ [] ∧ tok.all Char.isDigit then some (Nat.ofDigitChars 10 tok 0) else none

/-- The array returned by `genfromtxt` without names: `squeeze` removes dimensions of size one. -/
inductive Arr (α : Type) where
  | scalar (v : α)
  | flat (v : List α)
  | table (rows : List (List α))

/-- `squeeze` of a table. -/
def squeeze {α : Type} (rows : List (List α)) : Arr α :=
  match rows with
  | [[v]] => .scalar v
  | [r] => .flat r
  | rows => if rows.all fun r => r.length = 1 then .flat rows.flatten else .table rows

/-- Value of one column of a two-dimensional array, `a[:, j]`; `none` is `IndexError`. -/
def Arr.col {α : Type} (j : ℕ) : Arr α → Option (List α)
  | .table rows => rows.mapM fun r => r[j]?
  | _ => none

/-- `loadData` of plotCgmresData.py for one file: numbers, `none` for what is not a number (`nan`). -/
def loadData {α : Type} (F : NumFmt α) (text : Str) : Option (Arr (Option α)) :=
  (readPlain (some ',') text).map fun rows => squeeze (rows.map fun r => r.map (readNum F))

end Nmpc.Text
