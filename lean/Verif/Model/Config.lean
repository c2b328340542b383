import Mathlib.Data.Rat.Defs
import Mathlib.Algebra.Order.Ring.Rat
import Mathlib.Algebra.BigOperators.Group.List.Basic

/-!
# Reading the configuration

The main programs read an XML file with `boost::property_tree::xml_parser::read_xml` and take each option out of the tree with
`get<T>(path)` (throws if the option is absent or its text is not a `T`) or `get(path, default)` (the type is that of the default;
the default is returned if the option is absent *or its text is not of this type*).

Simplifications: the tree is the list of the elements without children, with their paths and texts (boost does not compare the names of closing tags,
which do not match in cfg/rbphdslam2dSim.xml and cfg/rbphdslam6dSim.xml), and the list of the children of `config.measurements.Pd`.
A `double` is a rational number; texts that overflow a `double`, `inf` and `nan` are left out.
-/

namespace RFS.Config

abbrev Text := List Char

/-- A child of `config.measurements.Pd`: a value or a comment, which `read_xml` without the flag `no_comments` keeps as a child; both have a text. -/
structure Child where
  comment : Bool
  text : Text
  deriving DecidableEq

def values (l : List Text) : List Child := l.map fun s => ⟨false, s⟩

/-- The property tree after `read_xml`: the elements without children (path and text), and the children of `config.measurements.Pd`. -/
structure Tree where
  vals : List (String × Text)
  pd : Option (List Child)

/-- `ptree::get_child_optional` followed by `data()`: the text of the first element with this path. -/
def Tree.val (t : Tree) (o : String) : Option Text := (t.vals.find? fun e => e.1 = o).map Prod.snd

/-- The types that the programs convert to; `flag`: the variable is set to whether the value is 1. -/
inductive Ty
  | int | uint | dbl | bool | str | flag
  deriving DecidableEq

inductive Val
  | num (q : ℚ)
  | text (s : Text)
  deriving DecidableEq

/-- White space of `std::ws` and of the extraction operators in the C locale. -/
def isWs (c : Char) : Bool := c = ' ' || c = '\t' || c = '\n' || c = '\r' || c = '\x0b' || c = '\x0c'

def isDig (c : Char) : Bool := '0' ≤ c && c ≤ '9'

/-- The value of a run of decimal digits, accumulated from the left as `num_get` does. -/
def natOf (ds : Text) : Nat := ds.foldl (fun a c => 10 * a + (c.toNat - '0'.toNat)) 0

/-- An optional sign: whether it is a minus, and the rest. -/
def takeSign : Text → Bool × Text
  | '-' :: r => (true, r)
  | '+' :: r => (false, r)
  | r => (false, r)

def signed (neg : Bool) (n : Nat) : Int := if neg then -(n : Int) else n

/-- `stream_translator<int>::get_value`: `iss >> e`, then `iss >> std::ws`, and nothing may be left (`iss.get() != eof` is a failure). -/
def parseInt (s : Text) : Option Int :=
  let sg := takeSign (s.dropWhile isWs)
  let ds := sg.2.takeWhile isDig
  let v := signed sg.1 (natOf ds)
  if ds = [] then none
  else if v < -2147483648 ∨ 2147483647 < v then none
  else if (sg.2.dropWhile isDig).dropWhile isWs = [] then some v else none

/-- `stream_translator<unsigned int>::get_value`; a minus sign is accepted and the value wraps around. -/
def parseUint (s : Text) : Option Int :=
  let sg := takeSign (s.dropWhile isWs)
  let ds := sg.2.takeWhile isDig
  if ds = [] then none
  else if 4294967295 < natOf ds then none
  else if (sg.2.dropWhile isDig).dropWhile isWs = [] then some (signed sg.1 (natOf ds) % 4294967296) else none

/-- The optional exponent of a decimal number: its value and the rest; `none`: an `e` without digits. -/
def takeExp : Text → Option (Int × Text)
  | c :: r =>
    if c = 'e' ∨ c = 'E' then
      let sg := takeSign r
      let ds := sg.2.takeWhile isDig
      if ds = [] then none else some (signed sg.1 (natOf ds), sg.2.dropWhile isDig)
    else some (0, c :: r)
  | [] => some (0, [])

/-- The optional fractional part: its digits and the rest. -/
def takeFrac : Text → Text × Text
  | '.' :: r => (r.takeWhile isDig, r.dropWhile isDig)
  | r => ([], r)

/-- Extraction of a `double`: the value and what is left. -/
def extractDbl (s : Text) : Option (ℚ × Text) :=
  let sg := takeSign s
  let ip := sg.2.takeWhile isDig
  let fr := takeFrac (sg.2.dropWhile isDig)
  if ip = [] ∧ fr.1 = [] then none
  else
    match takeExp fr.2 with
    | none => none
    | some (e, r) => some ((signed sg.1 (natOf (ip ++ fr.1)) : ℚ) * (10 : ℚ) ^ (e - (fr.1.length : Int)), r)

/-- `stream_translator<double>::get_value`. -/
def parseDbl (s : Text) : Option ℚ :=
  match extractDbl (s.dropWhile isWs) with
  | none => none
  | some (q, r) => if r.dropWhile isWs = [] then some q else none

/-- `boost::lexical_cast<double>`: no white space around the number. -/
def castDbl (s : Text) : Option ℚ :=
  match extractDbl s with
  | none => none
  | some (q, r) => if r = [] then some q else none

/-- `stream_translator<bool>::get_value`: a number 0 or 1, otherwise `true` or `false`. -/
def parseBool (s : Text) : Option Bool :=
  if parseInt s = some 0 then some false
  else if parseInt s = some 1 then some true
  else
    let s1 := s.dropWhile isWs
    if s1.take 4 = "true".toList ∧ (s1.drop 4).dropWhile isWs = [] then some true
    else if s1.take 5 = "false".toList ∧ (s1.drop 5).dropWhile isWs = [] then some false
    else none

/-- `ptree::get_value_optional<T>`. -/
def conv : Ty → Text → Option Val
  | .int, s => (parseInt s).map fun (v : Int) => Val.num (v : ℚ)
  | .uint, s => (parseUint s).map fun (v : Int) => Val.num (v : ℚ)
  | .dbl, s => (parseDbl s).map .num
  | .bool, s => (parseBool s).map fun b => .num (if b then 1 else 0)
  | .flag, s => (parseInt s).map fun (v : Int) => Val.num (v : ℚ)
  | .str, s => some (.text s)

/-- The second argument of `get`: none, a literal, or a variable that was read before. -/
inductive Dflt
  | req
  | num (q : ℚ)
  | text (s : Text)
  | of (o : String)
  deriving DecidableEq

/-- One statement `variable = pt.get<ty>(opt, dflt)`; `var` is the declared type of the variable (`flag`: `if(pt.get(opt, 0) == 1) variable = true`). -/
structure Rd where
  opt : String
  ty : Ty
  dflt : Dflt
  var : Ty
  deriving DecidableEq

inductive CErr
  /-- `ptree_bad_path`: a mandatory option is absent. -/
  | badPath (o : String)
  /-- `ptree_bad_data`: the text of a mandatory option is not of its type. -/
  | badData (o : String)
  /-- `bad_lexical_cast` in the list of detection probabilities. -/
  | badCast
  /-- undefined behaviour: `*s.rbegin()` of an empty string. -/
  | emptyString
  /-- undefined behaviour: a variable is used before it is set. -/
  | unset
  deriving DecidableEq

/-- The variables, named by the options they are read from; `none`: not set yet. -/
abbrev Env := String → Option Val

/-- `pt.get`. -/
def getOpt (t : Tree) (env : Env) (r : Rd) : Except CErr Val :=
  match t.val r.opt with
  | none =>
    match r.dflt with
    | .req => .error (.badPath r.opt)
    | .num q => .ok (.num q)
    | .text s => .ok (.text s)
    | .of o => match env o with | some v => .ok v | none => .error .unset
  | some s =>
    match conv r.ty s with
    | some v => .ok v
    | none =>
      match r.dflt with
      | .req => .error (.badData r.opt)
      | .num q => .ok (.num q)
      | .text s => .ok (.text s)
      | .of o => match env o with | some v => .ok v | none => .error .unset

/-- What the variable holds: for `if(pt.get(opt, 0) == 1) variable = true` whether the value is 1. -/
def store (r : Rd) (v : Val) : Val := if r.var = .flag then .num (if v = .num 1 then 1 else 0) else v

/-- One statement of `readConfigFile`. -/
def step (t : Tree) (env : Env) (r : Rd) : Except CErr Env :=
  match getOpt t env r with
  | .error e => .error e
  | .ok v => .ok fun o => if o = r.opt then some (store r v) else env o

/-- The statements of `readConfigFile` in their order. -/
def readAll (t : Tree) (rs : List Rd) : Except CErr Env := rs.foldlM (step t) fun _ => none

/-- The programs. `phd2d` stands for rbphdslam2dSim and rbphdslamCityTrees10000, `lmbCity` for rblmbslamCityTrees10000. -/
inductive Prog
  | phd2d | lmbCity | fast2d | fastVP | phdVP | cbm2d | lmb2d | phdAmp | phd6d | ceres1d | ceres2d | pso1d | psoOrb | pso2d
  deriving DecidableEq

/-- `readConfigFile`, include/RBPHDSLAM_2D.hpp 85-154. `RBPHDSLAM_2D<MeasurementModel_XY>` (rbphdslam2dSim, rbphdslamCityTrees10000): the branch of lines 121-127 for this measurement model. -/
def phd2dReads : List Rd := [
  ⟨"config.logging.logResultsToFile", .int, (.num 0), .flag⟩,
  ⟨"config.logging.logTimingToFile", .int, (.num 0), .flag⟩,
  ⟨"config.logging.logDirPrefix", .str, (.text "./".toList), .str⟩,
  ⟨"config.timesteps", .int, .req, .int⟩,
  ⟨"config.sec_per_timestep", .dbl, .req, .dbl⟩,
  ⟨"config.trajectory.nSegments", .int, .req, .int⟩,
  ⟨"config.trajectory.max_dx_per_sec", .dbl, .req, .dbl⟩,
  ⟨"config.trajectory.max_dy_per_sec", .dbl, .req, .dbl⟩,
  ⟨"config.trajectory.max_dz_per_sec", .dbl, .req, .dbl⟩,
  ⟨"config.trajectory.min_dx_per_sec", .dbl, .req, .dbl⟩,
  ⟨"config.trajectory.vardx", .dbl, .req, .dbl⟩,
  ⟨"config.trajectory.vardy", .dbl, .req, .dbl⟩,
  ⟨"config.trajectory.vardz", .dbl, .req, .dbl⟩,
  ⟨"config.landmarks.nLandmarks", .int, .req, .int⟩,
  ⟨"config.landmarks.varlmx", .dbl, .req, .dbl⟩,
  ⟨"config.landmarks.varlmy", .dbl, .req, .dbl⟩,
  ⟨"config.measurements.rangeLimitMax", .dbl, .req, .dbl⟩,
  ⟨"config.measurements.rangeLimitMin", .dbl, .req, .dbl⟩,
  ⟨"config.measurements.rangeLimitBuffer", .dbl, .req, .dbl⟩,
  ⟨"config.measurements.probDetection", .dbl, .req, .dbl⟩,
  ⟨"config.measurements.clutterIntensity", .dbl, .req, .dbl⟩,
  ⟨"config.measurements.varzy", .dbl, .req, .dbl⟩,
  ⟨"config.measurements.varzx", .dbl, .req, .dbl⟩,
  ⟨"config.filter.nParticles", .int, (.num 200), .int⟩,
  ⟨"config.filter.predict.processNoiseInflationFactor", .dbl, (.num (1)), .dbl⟩,
  ⟨"config.filter.predict.birthGaussianWeight", .dbl, (.num (1 / 100)), .dbl⟩,
  ⟨"config.filter.update.measurementNoiseInflationFactor", .dbl, (.num (1)), .dbl⟩,
  ⟨"config.filter.update.KalmanFilter.innovationThreshold.range", .dbl, .req, .dbl⟩,
  ⟨"config.filter.update.KalmanFilter.innovationThreshold.bearing", .dbl, .req, .dbl⟩,
  ⟨"config.filter.update.GaussianCreateInnovMDThreshold", .dbl, .req, .dbl⟩,
  ⟨"config.filter.weighting.nEvalPt", .int, (.num 15), .int⟩,
  ⟨"config.filter.weighting.minWeight", .dbl, (.num (3 / 4)), .dbl⟩,
  ⟨"config.filter.weighting.threshold", .dbl, (.num (3)), .dbl⟩,
  ⟨"config.filter.weighting.useClusterProcess", .int, (.num 0), .flag⟩,
  ⟨"config.filter.resampling.effNParticle", .int, (.of "config.filter.nParticles"), .dbl⟩,
  ⟨"config.filter.resampling.minTimesteps", .int, (.num 1), .int⟩,
  ⟨"config.filter.merge.threshold", .dbl, .req, .dbl⟩,
  ⟨"config.filter.merge.covInflationFactor", .dbl, (.num (1)), .dbl⟩,
  ⟨"config.filter.prune.threshold", .dbl, (.of "config.filter.predict.birthGaussianWeight"), .dbl⟩]

/-- `readConfigFile`, include/RBLMBSLAM_2D.hpp 85-151. `RBLMBSLAM_2D<MeasurementModel_XY>` (rblmbslamCityTrees10000); the second, equal reading of the number of particles is left out. -/
def lmbCityReads : List Rd := [
  ⟨"config.logging.logResultsToFile", .int, (.num 0), .flag⟩,
  ⟨"config.logging.logTimingToFile", .int, (.num 0), .flag⟩,
  ⟨"config.logging.logDirPrefix", .str, (.text "./".toList), .str⟩,
  ⟨"config.timesteps", .int, .req, .int⟩,
  ⟨"config.sec_per_timestep", .dbl, .req, .dbl⟩,
  ⟨"config.trajectory.nSegments", .int, .req, .int⟩,
  ⟨"config.trajectory.max_dx_per_sec", .dbl, .req, .dbl⟩,
  ⟨"config.trajectory.max_dy_per_sec", .dbl, .req, .dbl⟩,
  ⟨"config.trajectory.max_dz_per_sec", .dbl, .req, .dbl⟩,
  ⟨"config.trajectory.min_dx_per_sec", .dbl, .req, .dbl⟩,
  ⟨"config.trajectory.vardx", .dbl, .req, .dbl⟩,
  ⟨"config.trajectory.vardy", .dbl, .req, .dbl⟩,
  ⟨"config.trajectory.vardz", .dbl, .req, .dbl⟩,
  ⟨"config.landmarks.nLandmarks", .int, .req, .int⟩,
  ⟨"config.landmarks.varlmx", .dbl, .req, .dbl⟩,
  ⟨"config.landmarks.varlmy", .dbl, .req, .dbl⟩,
  ⟨"config.measurements.rangeLimitMax", .dbl, .req, .dbl⟩,
  ⟨"config.measurements.rangeLimitMin", .dbl, .req, .dbl⟩,
  ⟨"config.measurements.rangeLimitBuffer", .dbl, .req, .dbl⟩,
  ⟨"config.measurements.probDetection", .dbl, .req, .dbl⟩,
  ⟨"config.measurements.clutterIntensity", .dbl, .req, .dbl⟩,
  ⟨"config.measurements.varzr", .dbl, .req, .dbl⟩,
  ⟨"config.measurements.varzb", .dbl, .req, .dbl⟩,
  ⟨"config.measurements.varzy", .dbl, .req, .dbl⟩,
  ⟨"config.measurements.varzx", .dbl, .req, .dbl⟩,
  ⟨"config.filter.nParticles", .int, (.num 200), .int⟩,
  ⟨"config.filter.predict.processNoiseInflationFactor", .dbl, (.num (1)), .dbl⟩,
  ⟨"config.filter.predict.birthTrackMaxPE", .dbl, (.num (1 / 100)), .dbl⟩,
  ⟨"config.filter.predict.birthTrackMinPE", .dbl, (.num (1 / 100)), .dbl⟩,
  ⟨"config.filter.predict.expectedBirths", .dbl, (.num (1)), .dbl⟩,
  ⟨"config.filter.update.measurementNoiseInflationFactor", .dbl, (.num (1)), .dbl⟩,
  ⟨"config.filter.update.KalmanFilter.innovationThreshold.range", .dbl, .req, .dbl⟩,
  ⟨"config.filter.update.KalmanFilter.innovationThreshold.bearing", .dbl, .req, .dbl⟩,
  ⟨"config.filter.update.GaussianCreateInnovMDThreshold", .dbl, .req, .dbl⟩,
  ⟨"config.filter.weighting.threshold", .dbl, (.num (1 / 10000)), .dbl⟩,
  ⟨"config.filter.resampling.effNParticle", .int, (.of "config.filter.nParticles"), .dbl⟩,
  ⟨"config.filter.resampling.minTimesteps", .int, (.num 1), .int⟩,
  ⟨"config.filter.merge.threshold", .dbl, .req, .dbl⟩,
  ⟨"config.filter.merge.covInflationFactor", .dbl, (.num (1)), .dbl⟩,
  ⟨"config.filter.prune.gaussianthreshold", .dbl, (.num (1 / 100)), .dbl⟩,
  ⟨"config.filter.prune.trackthreshold", .dbl, (.of "config.filter.predict.birthTrackMaxPE"), .dbl⟩]

/-- `readConfigFile`, src/fastslam2dSim.cpp 83-138. -/
def fast2dReads : List Rd := [
  ⟨"config.logging.logResultsToFile", .int, (.num 0), .flag⟩,
  ⟨"config.logging.logTimingToFile", .int, (.num 0), .flag⟩,
  ⟨"config.logging.logDirPrefix", .str, (.text "./".toList), .str⟩,
  ⟨"config.timesteps", .int, .req, .int⟩,
  ⟨"config.sec_per_timestep", .dbl, .req, .dbl⟩,
  ⟨"config.trajectory.nSegments", .int, .req, .int⟩,
  ⟨"config.trajectory.max_dx_per_sec", .dbl, .req, .dbl⟩,
  ⟨"config.trajectory.max_dy_per_sec", .dbl, .req, .dbl⟩,
  ⟨"config.trajectory.max_dz_per_sec", .dbl, .req, .dbl⟩,
  ⟨"config.trajectory.min_dx_per_sec", .dbl, .req, .dbl⟩,
  ⟨"config.trajectory.vardx", .dbl, .req, .dbl⟩,
  ⟨"config.trajectory.vardy", .dbl, .req, .dbl⟩,
  ⟨"config.trajectory.vardz", .dbl, .req, .dbl⟩,
  ⟨"config.landmarks.nLandmarks", .int, .req, .int⟩,
  ⟨"config.landmarks.varlmx", .dbl, .req, .dbl⟩,
  ⟨"config.landmarks.varlmy", .dbl, .req, .dbl⟩,
  ⟨"config.measurements.rangeLimitMax", .dbl, .req, .dbl⟩,
  ⟨"config.measurements.rangeLimitMin", .dbl, .req, .dbl⟩,
  ⟨"config.measurements.rangeLimitBuffer", .dbl, .req, .dbl⟩,
  ⟨"config.measurements.probDetection", .dbl, .req, .dbl⟩,
  ⟨"config.measurements.clutterIntensity", .dbl, .req, .dbl⟩,
  ⟨"config.measurements.varzr", .dbl, .req, .dbl⟩,
  ⟨"config.measurements.varzb", .dbl, .req, .dbl⟩,
  ⟨"config.filter.nParticles", .int, (.num 200), .int⟩,
  ⟨"config.filter.predict.processNoiseInflationFactor", .dbl, (.num (1)), .dbl⟩,
  ⟨"config.filter.update.measurementNoiseInflationFactor", .dbl, (.num (1)), .dbl⟩,
  ⟨"config.filter.update.maxNDataAssocHypotheses", .int, (.num 1), .int⟩,
  ⟨"config.filter.update.maxDataAssocLogLikelihoodDiff", .dbl, (.num (3)), .dbl⟩,
  ⟨"config.filter.update.KalmanFilter.innovationThreshold.range", .dbl, .req, .dbl⟩,
  ⟨"config.filter.update.KalmanFilter.innovationThreshold.bearing", .dbl, .req, .dbl⟩,
  ⟨"config.filter.weighting.minLogMeasurementLikelihood", .dbl, (.num (-10)), .dbl⟩,
  ⟨"config.filter.resampling.effNParticle", .int, (.of "config.filter.nParticles"), .dbl⟩,
  ⟨"config.filter.resampling.minTimesteps", .int, (.num 1), .int⟩,
  ⟨"config.filter.prune.threshold", .dbl, (.num (-5)), .dbl⟩]

/-- `readConfigFile`, src/fastslam_VictoriaPark.cpp 90-179. -/
def fastVPReads : List Rd := [
  ⟨"config.dataset.directory", .str, .req, .str⟩,
  ⟨"config.dataset.filename.gps", .str, .req, .str⟩,
  ⟨"config.dataset.filename.detection", .str, .req, .str⟩,
  ⟨"config.dataset.filename.lidar", .str, .req, .str⟩,
  ⟨"config.dataset.filename.input", .str, .req, .str⟩,
  ⟨"config.dataset.filename.manager", .str, .req, .str⟩,
  ⟨"config.logging.logResultsToFile", .int, (.num 0), .flag⟩,
  ⟨"config.logging.logTimingToFile", .int, (.num 0), .flag⟩,
  ⟨"config.logging.logDirPrefix", .str, (.text "./".toList), .str⟩,
  ⟨"config.process.AckermanModel.rearWheelOffset", .dbl, .req, .dbl⟩,
  ⟨"config.process.AckermanModel.frontToRearDist", .dbl, .req, .dbl⟩,
  ⟨"config.process.AckermanModel.sensorOffset_x", .dbl, .req, .dbl⟩,
  ⟨"config.process.AckermanModel.sensorOffset_y", .dbl, .req, .dbl⟩,
  ⟨"config.process.varuv", .dbl, .req, .dbl⟩,
  ⟨"config.process.varur", .dbl, .req, .dbl⟩,
  ⟨"config.process.ur_scale", .dbl, .req, .dbl⟩,
  ⟨"config.landmarks.varlmx", .dbl, .req, .dbl⟩,
  ⟨"config.landmarks.varlmy", .dbl, .req, .dbl⟩,
  ⟨"config.landmarks.varlmd", .dbl, .req, .dbl⟩,
  ⟨"config.measurements.rangeLimitMax", .dbl, .req, .dbl⟩,
  ⟨"config.measurements.rangeLimitMin", .dbl, .req, .dbl⟩,
  ⟨"config.measurements.bearingLimitMax", .dbl, .req, .dbl⟩,
  ⟨"config.measurements.bearingLimitMin", .dbl, .req, .dbl⟩,
  ⟨"config.measurements.expectedNClutter", .dbl, .req, .dbl⟩,
  ⟨"config.measurements.addedClutter", .int, (.num 0), .dbl⟩,
  ⟨"config.measurements.bufferZonePd", .dbl, .req, .dbl⟩,
  ⟨"config.measurements.varzr", .dbl, .req, .dbl⟩,
  ⟨"config.measurements.varzb", .dbl, .req, .dbl⟩,
  ⟨"config.measurements.varzd", .dbl, .req, .dbl⟩,
  ⟨"config.measurements.varza", .dbl, .req, .dbl⟩,
  ⟨"config.filter.nMsgToProcess", .int, .req, .int⟩,
  ⟨"config.filter.nParticles", .int, (.num 200), .int⟩,
  ⟨"config.filter.predict.processNoiseInflationFactor", .dbl, (.num (1)), .dbl⟩,
  ⟨"config.filter.update.measurementNoiseInflationFactor", .dbl, (.num (1)), .dbl⟩,
  ⟨"config.filter.update.maxNDataAssocHypotheses", .int, (.num 1), .int⟩,
  ⟨"config.filter.update.maxDataAssocLogLikelihoodDiff", .dbl, (.num (3)), .dbl⟩,
  ⟨"config.filter.update.KalmanFilter.innovationThreshold.range", .dbl, .req, .dbl⟩,
  ⟨"config.filter.update.KalmanFilter.innovationThreshold.bearing", .dbl, .req, .dbl⟩,
  ⟨"config.filter.update.landmarkCandidate.MeasurementSupportDist", .dbl, .req, .dbl⟩,
  ⟨"config.filter.update.landmarkCandidate.MeasurementCountThreshold", .uint, .req, .uint⟩,
  ⟨"config.filter.update.landmarkCandidate.CurrentMeasurementCountThreshold", .uint, .req, .uint⟩,
  ⟨"config.filter.update.landmarkCandidate.MeasurementCheckThreshold", .uint, .req, .uint⟩,
  ⟨"config.filter.update.landmarkLockWeight", .dbl, .req, .dbl⟩,
  ⟨"config.filter.weighting.minLogMeasurementLikelihood", .dbl, (.num (-10)), .dbl⟩,
  ⟨"config.filter.resampling.effNParticle", .int, (.of "config.filter.nParticles"), .dbl⟩,
  ⟨"config.filter.resampling.minTimesteps", .int, (.num 1), .int⟩,
  ⟨"config.filter.resampling.minMeasurements", .int, (.num 0), .int⟩,
  ⟨"config.filter.prune.threshold", .dbl, (.num (-5)), .dbl⟩,
  ⟨"config.filter.prune.nMeasurementsThreshold", .uint, .req, .uint⟩]

/-- `readConfigFile`, src/rbphdslam_VictoriaPark.cpp 90-183. -/
def phdVPReads : List Rd := [
  ⟨"config.dataset.directory", .str, .req, .str⟩,
  ⟨"config.dataset.filename.gps", .str, .req, .str⟩,
  ⟨"config.dataset.filename.detection", .str, .req, .str⟩,
  ⟨"config.dataset.filename.lidar", .str, .req, .str⟩,
  ⟨"config.dataset.filename.input", .str, .req, .str⟩,
  ⟨"config.dataset.filename.manager", .str, .req, .str⟩,
  ⟨"config.logging.logResultsToFile", .int, (.num 0), .flag⟩,
  ⟨"config.logging.logTimingToFile", .int, (.num 0), .flag⟩,
  ⟨"config.logging.logDirPrefix", .str, (.text "./".toList), .str⟩,
  ⟨"config.process.AckermanModel.rearWheelOffset", .dbl, .req, .dbl⟩,
  ⟨"config.process.AckermanModel.frontToRearDist", .dbl, .req, .dbl⟩,
  ⟨"config.process.AckermanModel.sensorOffset_x", .dbl, .req, .dbl⟩,
  ⟨"config.process.AckermanModel.sensorOffset_y", .dbl, .req, .dbl⟩,
  ⟨"config.process.varuv", .dbl, .req, .dbl⟩,
  ⟨"config.process.varur", .dbl, .req, .dbl⟩,
  ⟨"config.process.ur_scale", .dbl, .req, .dbl⟩,
  ⟨"config.landmarks.varlmx", .dbl, .req, .dbl⟩,
  ⟨"config.landmarks.varlmy", .dbl, .req, .dbl⟩,
  ⟨"config.landmarks.varlmd", .dbl, .req, .dbl⟩,
  ⟨"config.measurements.rangeLimitMax", .dbl, .req, .dbl⟩,
  ⟨"config.measurements.rangeLimitMin", .dbl, .req, .dbl⟩,
  ⟨"config.measurements.bearingLimitMax", .dbl, .req, .dbl⟩,
  ⟨"config.measurements.bearingLimitMin", .dbl, .req, .dbl⟩,
  ⟨"config.measurements.expectedNClutter", .dbl, .req, .dbl⟩,
  ⟨"config.measurements.addedClutter", .int, (.num 0), .dbl⟩,
  ⟨"config.measurements.bufferZonePd", .dbl, .req, .dbl⟩,
  ⟨"config.measurements.varzr", .dbl, .req, .dbl⟩,
  ⟨"config.measurements.varzb", .dbl, .req, .dbl⟩,
  ⟨"config.measurements.varzd", .dbl, .req, .dbl⟩,
  ⟨"config.measurements.varza", .dbl, .req, .dbl⟩,
  ⟨"config.filter.nMsgToProcess", .int, .req, .int⟩,
  ⟨"config.filter.nParticles", .int, (.num 200), .int⟩,
  ⟨"config.filter.predict.processNoiseInflationFactor", .dbl, (.num (1)), .dbl⟩,
  ⟨"config.filter.predict.birthGaussian.Weight", .dbl, (.num (1 / 100)), .dbl⟩,
  ⟨"config.filter.predict.birthGaussian.SupportMeasurementDist", .dbl, .req, .dbl⟩,
  ⟨"config.filter.predict.birthGaussian.SupportMeasurementThreshold", .int, .req, .int⟩,
  ⟨"config.filter.predict.birthGaussian.CheckCountThreshold", .int, .req, .int⟩,
  ⟨"config.filter.predict.birthGaussian.CurrentMeasurementCountThreshold", .dbl, .req, .dbl⟩,
  ⟨"config.filter.update.measurementNoiseInflationFactor", .dbl, (.num (1)), .dbl⟩,
  ⟨"config.filter.update.KalmanFilter.innovationThreshold.range", .dbl, .req, .dbl⟩,
  ⟨"config.filter.update.KalmanFilter.innovationThreshold.bearing", .dbl, .req, .dbl⟩,
  ⟨"config.filter.update.GaussianCreateInnovMDThreshold", .dbl, .req, .dbl⟩,
  ⟨"config.filter.weighting.nEvalPt", .int, (.num 15), .int⟩,
  ⟨"config.filter.weighting.minWeight", .dbl, (.num (3 / 4)), .dbl⟩,
  ⟨"config.filter.weighting.threshold", .dbl, (.num (3)), .dbl⟩,
  ⟨"config.filter.weighting.useClusterProcess", .int, (.num 0), .flag⟩,
  ⟨"config.filter.resampling.effNParticle", .int, (.of "config.filter.nParticles"), .dbl⟩,
  ⟨"config.filter.resampling.minTimesteps", .int, (.num 1), .int⟩,
  ⟨"config.filter.resampling.minMeasurements", .int, (.num 0), .int⟩,
  ⟨"config.filter.merge.threshold", .dbl, .req, .dbl⟩,
  ⟨"config.filter.merge.covInflationFactor", .dbl, (.num (1)), .dbl⟩,
  ⟨"config.filter.prune.threshold", .dbl, (.of "config.filter.predict.birthGaussian.Weight"), .dbl⟩]

/-- `readConfigFile`, src/rbcbmemberslam2dSim.cpp 83-141. -/
def cbm2dReads : List Rd := [
  ⟨"config.logging.logToFile", .int, (.num 0), .flag⟩,
  ⟨"config.logging.logDirPrefix", .str, (.text "./".toList), .str⟩,
  ⟨"config.timesteps", .int, .req, .int⟩,
  ⟨"config.sec_per_timestep", .dbl, .req, .dbl⟩,
  ⟨"config.trajectory.nSegments", .int, .req, .int⟩,
  ⟨"config.trajectory.max_dx_per_sec", .dbl, .req, .dbl⟩,
  ⟨"config.trajectory.max_dy_per_sec", .dbl, .req, .dbl⟩,
  ⟨"config.trajectory.max_dz_per_sec", .dbl, .req, .dbl⟩,
  ⟨"config.trajectory.min_dx_per_sec", .dbl, .req, .dbl⟩,
  ⟨"config.trajectory.vardx", .dbl, .req, .dbl⟩,
  ⟨"config.trajectory.vardy", .dbl, .req, .dbl⟩,
  ⟨"config.trajectory.vardz", .dbl, .req, .dbl⟩,
  ⟨"config.landmarks.nLandmarks", .int, .req, .int⟩,
  ⟨"config.landmarks.varlmx", .dbl, .req, .dbl⟩,
  ⟨"config.landmarks.varlmy", .dbl, .req, .dbl⟩,
  ⟨"config.measurements.rangeLimitMax", .dbl, .req, .dbl⟩,
  ⟨"config.measurements.rangeLimitMin", .dbl, .req, .dbl⟩,
  ⟨"config.measurements.rangeLimitBuffer", .dbl, .req, .dbl⟩,
  ⟨"config.measurements.probDetection", .dbl, .req, .dbl⟩,
  ⟨"config.measurements.clutterIntensity", .dbl, .req, .dbl⟩,
  ⟨"config.measurements.varzr", .dbl, .req, .dbl⟩,
  ⟨"config.measurements.varzb", .dbl, .req, .dbl⟩,
  ⟨"config.filter.nParticles", .int, (.num 200), .int⟩,
  ⟨"config.filter.predict.processNoiseInflationFactor", .dbl, (.num (1)), .dbl⟩,
  ⟨"config.filter.predict.birthTrackPE", .dbl, (.num (1 / 100)), .dbl⟩,
  ⟨"config.filter.update.measurementNoiseInflationFactor", .dbl, (.num (1)), .dbl⟩,
  ⟨"config.filter.update.KalmanFilter.innovationThreshold.range", .dbl, .req, .dbl⟩,
  ⟨"config.filter.update.KalmanFilter.innovationThreshold.bearing", .dbl, .req, .dbl⟩,
  ⟨"config.filter.update.GaussianCreateInnovMDThreshold", .dbl, .req, .dbl⟩,
  ⟨"config.filter.weighting.nEvalPt", .int, (.num 15), .int⟩,
  ⟨"config.filter.weighting.minPE", .dbl, (.num (3 / 4)), .dbl⟩,
  ⟨"config.filter.weighting.threshold", .dbl, (.num (1 / 10000)), .dbl⟩,
  ⟨"config.filter.weighting.useClusterProcess", .int, (.num 0), .flag⟩,
  ⟨"config.filter.resampling.effNParticle", .int, (.of "config.filter.nParticles"), .dbl⟩,
  ⟨"config.filter.resampling.minTimesteps", .int, (.num 1), .int⟩,
  ⟨"config.filter.merge.threshold", .dbl, .req, .dbl⟩,
  ⟨"config.filter.merge.covInflationFactor", .dbl, (.num (1)), .dbl⟩,
  ⟨"config.filter.prune.gaussianthreshold", .dbl, (.num (1 / 100)), .dbl⟩,
  ⟨"config.filter.prune.trackthreshold", .dbl, (.of "config.filter.predict.birthTrackPE"), .dbl⟩]

/-- `readConfigFile`, src/rblmbslam2dSim.cpp 83-140. -/
def lmb2dReads : List Rd := [
  ⟨"config.logging.logToFile", .int, (.num 0), .flag⟩,
  ⟨"config.logging.logDirPrefix", .str, (.text "./".toList), .str⟩,
  ⟨"config.timesteps", .int, .req, .int⟩,
  ⟨"config.sec_per_timestep", .dbl, .req, .dbl⟩,
  ⟨"config.trajectory.nSegments", .int, .req, .int⟩,
  ⟨"config.trajectory.max_dx_per_sec", .dbl, .req, .dbl⟩,
  ⟨"config.trajectory.max_dy_per_sec", .dbl, .req, .dbl⟩,
  ⟨"config.trajectory.max_dz_per_sec", .dbl, .req, .dbl⟩,
  ⟨"config.trajectory.min_dx_per_sec", .dbl, .req, .dbl⟩,
  ⟨"config.trajectory.vardx", .dbl, .req, .dbl⟩,
  ⟨"config.trajectory.vardy", .dbl, .req, .dbl⟩,
  ⟨"config.trajectory.vardz", .dbl, .req, .dbl⟩,
  ⟨"config.landmarks.nLandmarks", .int, .req, .int⟩,
  ⟨"config.landmarks.varlmx", .dbl, .req, .dbl⟩,
  ⟨"config.landmarks.varlmy", .dbl, .req, .dbl⟩,
  ⟨"config.measurements.rangeLimitMax", .dbl, .req, .dbl⟩,
  ⟨"config.measurements.rangeLimitMin", .dbl, .req, .dbl⟩,
  ⟨"config.measurements.rangeLimitBuffer", .dbl, .req, .dbl⟩,
  ⟨"config.measurements.probDetection", .dbl, .req, .dbl⟩,
  ⟨"config.measurements.clutterIntensity", .dbl, .req, .dbl⟩,
  ⟨"config.measurements.varzr", .dbl, .req, .dbl⟩,
  ⟨"config.measurements.varzb", .dbl, .req, .dbl⟩,
  ⟨"config.filter.nParticles", .int, (.num 200), .int⟩,
  ⟨"config.filter.predict.processNoiseInflationFactor", .dbl, (.num (1)), .dbl⟩,
  ⟨"config.filter.predict.birthTrackMaxPE", .dbl, (.num (1 / 100)), .dbl⟩,
  ⟨"config.filter.predict.birthTrackMinPE", .dbl, (.num (1 / 100)), .dbl⟩,
  ⟨"config.filter.predict.expectedBirths", .dbl, (.num (1)), .dbl⟩,
  ⟨"config.filter.update.measurementNoiseInflationFactor", .dbl, (.num (1)), .dbl⟩,
  ⟨"config.filter.update.KalmanFilter.innovationThreshold.range", .dbl, .req, .dbl⟩,
  ⟨"config.filter.update.KalmanFilter.innovationThreshold.bearing", .dbl, .req, .dbl⟩,
  ⟨"config.filter.update.GaussianCreateInnovMDThreshold", .dbl, .req, .dbl⟩,
  ⟨"config.filter.weighting.threshold", .dbl, (.num (1 / 10000)), .dbl⟩,
  ⟨"config.filter.resampling.effNParticle", .int, (.of "config.filter.nParticles"), .dbl⟩,
  ⟨"config.filter.resampling.minTimesteps", .int, (.num 1), .int⟩,
  ⟨"config.filter.merge.threshold", .dbl, .req, .dbl⟩,
  ⟨"config.filter.merge.covInflationFactor", .dbl, (.num (1)), .dbl⟩,
  ⟨"config.filter.prune.gaussianthreshold", .dbl, (.num (1 / 100)), .dbl⟩,
  ⟨"config.filter.prune.trackthreshold", .dbl, (.of "config.filter.predict.birthTrackMaxPE"), .dbl⟩]

/-- `readConfigFile`, src/rbphdslam2dSim_amplitude.cpp 86-145. -/
def phdAmpReads : List Rd := [
  ⟨"config.logging.logToFile", .int, (.num 0), .flag⟩,
  ⟨"config.logging.logDirPrefix", .str, (.text "./".toList), .str⟩,
  ⟨"config.timesteps", .int, .req, .int⟩,
  ⟨"config.sec_per_timestep", .dbl, .req, .dbl⟩,
  ⟨"config.trajectory.nSegments", .int, .req, .int⟩,
  ⟨"config.trajectory.max_dx_per_sec", .dbl, .req, .dbl⟩,
  ⟨"config.trajectory.max_dy_per_sec", .dbl, .req, .dbl⟩,
  ⟨"config.trajectory.max_dz_per_sec", .dbl, .req, .dbl⟩,
  ⟨"config.trajectory.min_dx_per_sec", .dbl, .req, .dbl⟩,
  ⟨"config.trajectory.vardx", .dbl, .req, .dbl⟩,
  ⟨"config.trajectory.vardy", .dbl, .req, .dbl⟩,
  ⟨"config.trajectory.vardz", .dbl, .req, .dbl⟩,
  ⟨"config.landmarks.nLandmarks", .int, .req, .int⟩,
  ⟨"config.landmarks.varlmx", .dbl, .req, .dbl⟩,
  ⟨"config.landmarks.varlmy", .dbl, .req, .dbl⟩,
  ⟨"config.measurements.rangeLimitMax", .dbl, .req, .dbl⟩,
  ⟨"config.measurements.rangeLimitMin", .dbl, .req, .dbl⟩,
  ⟨"config.measurements.rangeLimitBuffer", .dbl, .req, .dbl⟩,
  ⟨"config.measurements.probDetection", .dbl, .req, .dbl⟩,
  ⟨"config.measurements.clutterIntensity", .dbl, .req, .dbl⟩,
  ⟨"config.measurements.varzr", .dbl, .req, .dbl⟩,
  ⟨"config.measurements.varzb", .dbl, .req, .dbl⟩,
  ⟨"config.filter.nParticles", .int, (.num 200), .int⟩,
  ⟨"config.filter.predict.processNoiseInflationFactor", .dbl, (.num (1)), .dbl⟩,
  ⟨"config.filter.predict.birthGaussianWeight", .dbl, (.num (1 / 100)), .dbl⟩,
  ⟨"config.filter.update.measurementNoiseInflationFactor", .dbl, (.num (1)), .dbl⟩,
  ⟨"config.filter.update.KalmanFilter.innovationThreshold.range", .dbl, .req, .dbl⟩,
  ⟨"config.filter.update.KalmanFilter.innovationThreshold.bearing", .dbl, .req, .dbl⟩,
  ⟨"config.filter.update.GaussianCreateInnovMDThreshold", .dbl, .req, .dbl⟩,
  ⟨"config.filter.weighting.nEvalPt", .int, (.num 15), .int⟩,
  ⟨"config.filter.weighting.minWeight", .dbl, (.num (3 / 4)), .dbl⟩,
  ⟨"config.filter.weighting.threshold", .dbl, (.num (3)), .dbl⟩,
  ⟨"config.filter.weighting.useClusterProcess", .int, (.num 0), .flag⟩,
  ⟨"config.filter.resampling.effNParticle", .int, (.of "config.filter.nParticles"), .dbl⟩,
  ⟨"config.filter.resampling.minTimesteps", .int, (.num 1), .int⟩,
  ⟨"config.filter.merge.threshold", .dbl, .req, .dbl⟩,
  ⟨"config.filter.merge.covInflationFactor", .dbl, (.num (1)), .dbl⟩,
  ⟨"config.filter.prune.threshold", .dbl, (.of "config.filter.predict.birthGaussianWeight"), .dbl⟩]

/-- `readConfigFile`, src/rbphdslam6dSim.cpp 86-179. -/
def phd6dReads : List Rd := [
  ⟨"config.logging.logResultsToFile", .int, (.num 0), .flag⟩,
  ⟨"config.logging.logTimingToFile", .int, (.num 0), .flag⟩,
  ⟨"config.logging.logDirPrefix", .str, (.text "./".toList), .str⟩,
  ⟨"config.use_gui", .bool, .req, .bool⟩,
  ⟨"config.timesteps", .int, .req, .int⟩,
  ⟨"config.sec_per_timestep", .dbl, .req, .dbl⟩,
  ⟨"config.trajectory.nSegments", .int, .req, .int⟩,
  ⟨"config.trajectory.max_dx_per_sec", .dbl, .req, .dbl⟩,
  ⟨"config.trajectory.max_dy_per_sec", .dbl, .req, .dbl⟩,
  ⟨"config.trajectory.max_dz_per_sec", .dbl, .req, .dbl⟩,
  ⟨"config.trajectory.max_dqx_per_sec", .dbl, .req, .dbl⟩,
  ⟨"config.trajectory.max_dqy_per_sec", .dbl, .req, .dbl⟩,
  ⟨"config.trajectory.max_dqz_per_sec", .dbl, .req, .dbl⟩,
  ⟨"config.trajectory.max_dqw_per_sec", .dbl, .req, .dbl⟩,
  ⟨"config.trajectory.min_dx_per_sec", .dbl, .req, .dbl⟩,
  ⟨"config.trajectory.vardx", .dbl, .req, .dbl⟩,
  ⟨"config.trajectory.vardy", .dbl, .req, .dbl⟩,
  ⟨"config.trajectory.vardz", .dbl, .req, .dbl⟩,
  ⟨"config.trajectory.vardqx", .dbl, .req, .dbl⟩,
  ⟨"config.trajectory.vardqy", .dbl, .req, .dbl⟩,
  ⟨"config.trajectory.vardqz", .dbl, .req, .dbl⟩,
  ⟨"config.trajectory.vardqw", .dbl, .req, .dbl⟩,
  ⟨"config.landmarks.nLandmarks", .int, .req, .int⟩,
  ⟨"config.landmarks.varlmx", .dbl, .req, .dbl⟩,
  ⟨"config.landmarks.varlmy", .dbl, .req, .dbl⟩,
  ⟨"config.landmarks.varlmz", .dbl, .req, .dbl⟩,
  ⟨"config.measurements.rangeLimitMax", .dbl, .req, .dbl⟩,
  ⟨"config.measurements.rangeLimitMin", .dbl, .req, .dbl⟩,
  ⟨"config.measurements.rangeLimitBuffer", .dbl, .req, .dbl⟩,
  ⟨"config.measurements.probDetection", .dbl, .req, .dbl⟩,
  ⟨"config.measurements.clutterIntensity", .dbl, .req, .dbl⟩,
  ⟨"config.measurements.varzx", .dbl, .req, .dbl⟩,
  ⟨"config.measurements.varzy", .dbl, .req, .dbl⟩,
  ⟨"config.measurements.varzz", .dbl, .req, .dbl⟩,
  ⟨"config.filter.nParticles", .int, (.num 200), .int⟩,
  ⟨"config.filter.predict.processNoiseInflationFactor", .dbl, (.num (1)), .dbl⟩,
  ⟨"config.filter.predict.birthGaussianWeight", .dbl, (.num (1 / 100)), .dbl⟩,
  ⟨"config.filter.update.measurementNoiseInflationFactor", .dbl, (.num (1)), .dbl⟩,
  ⟨"config.filter.update.KalmanFilter.innovationThreshold.range", .dbl, .req, .dbl⟩,
  ⟨"config.filter.update.KalmanFilter.innovationThreshold.bearing", .dbl, .req, .dbl⟩,
  ⟨"config.filter.update.GaussianCreateInnovMDThreshold", .dbl, .req, .dbl⟩,
  ⟨"config.filter.weighting.nEvalPt", .int, (.num 15), .int⟩,
  ⟨"config.filter.weighting.minWeight", .dbl, (.num (3 / 4)), .dbl⟩,
  ⟨"config.filter.weighting.threshold", .dbl, (.num (3)), .dbl⟩,
  ⟨"config.filter.weighting.useClusterProcess", .int, (.num 0), .flag⟩,
  ⟨"config.filter.resampling.effNParticle", .int, (.of "config.filter.nParticles"), .dbl⟩,
  ⟨"config.filter.resampling.minTimesteps", .int, (.num 1), .int⟩,
  ⟨"config.filter.merge.threshold", .dbl, .req, .dbl⟩,
  ⟨"config.filter.merge.covInflationFactor", .dbl, (.num (1)), .dbl⟩,
  ⟨"config.filter.prune.threshold", .dbl, (.of "config.filter.predict.birthGaussianWeight"), .dbl⟩]

/-- `readConfigFile`, src/rfsceresslam1dSim.cpp 111-151. -/
def ceres1dReads : List Rd := [
  ⟨"config.logging.logToFile", .int, (.num 0), .flag⟩,
  ⟨"config.logging.logDirPrefix", .str, (.text "./".toList), .str⟩,
  ⟨"config.timesteps", .int, .req, .int⟩,
  ⟨"config.sec_per_timestep", .dbl, .req, .dbl⟩,
  ⟨"config.trajectory.nSegments", .int, .req, .int⟩,
  ⟨"config.trajectory.max_dx_per_sec", .dbl, .req, .dbl⟩,
  ⟨"config.trajectory.min_dx_per_sec", .dbl, .req, .dbl⟩,
  ⟨"config.trajectory.vardx", .dbl, .req, .dbl⟩,
  ⟨"config.landmarks.nLandmarks", .int, .req, .int⟩,
  ⟨"config.measurements.rangeLimitMax", .dbl, .req, .dbl⟩,
  ⟨"config.measurements.rangeLimitMin", .dbl, .req, .dbl⟩,
  ⟨"config.measurements.rangeLimitBuffer", .dbl, .req, .dbl⟩,
  ⟨"config.measurements.probDetection", .dbl, .req, .dbl⟩,
  ⟨"config.measurements.clutterIntensity", .dbl, .req, .dbl⟩,
  ⟨"config.measurements.varzr", .dbl, .req, .dbl⟩,
  ⟨"config.optimizer.iterations", .int, .req, .int⟩,
  ⟨"config.optimizer.ospaC", .dbl, .req, .dbl⟩,
  ⟨"config.optimizer.useDataAssociation", .int, (.num 0), .flag⟩,
  ⟨"config.optimizer.initMapProb", .dbl, .req, .dbl⟩,
  ⟨"config.optimizer.predict.processNoiseInflationFactor", .dbl, .req, .dbl⟩,
  ⟨"config.optimizer.update.measurementNoiseInflationFactor", .dbl, .req, .dbl⟩,
  ⟨"config.optimizer.MLThreshold", .dbl, .req, .dbl⟩]

/-- `readConfigFile`, src/rfsceresslam2dSim.cpp 200-245. -/
def ceres2dReads : List Rd := [
  ⟨"config.logging.logToFile", .int, (.num 0), .flag⟩,
  ⟨"config.logging.logDirPrefix", .str, (.text "./".toList), .str⟩,
  ⟨"config.timesteps", .int, .req, .int⟩,
  ⟨"config.sec_per_timestep", .dbl, .req, .dbl⟩,
  ⟨"config.trajectory.nSegments", .int, .req, .int⟩,
  ⟨"config.trajectory.max_dx_per_sec", .dbl, .req, .dbl⟩,
  ⟨"config.trajectory.max_dy_per_sec", .dbl, .req, .dbl⟩,
  ⟨"config.trajectory.max_dz_per_sec", .dbl, .req, .dbl⟩,
  ⟨"config.trajectory.min_dx_per_sec", .dbl, .req, .dbl⟩,
  ⟨"config.trajectory.vardx", .dbl, .req, .dbl⟩,
  ⟨"config.trajectory.vardy", .dbl, .req, .dbl⟩,
  ⟨"config.trajectory.vardz", .dbl, .req, .dbl⟩,
  ⟨"config.landmarks.nLandmarks", .int, .req, .int⟩,
  ⟨"config.measurements.rangeLimitMax", .dbl, .req, .dbl⟩,
  ⟨"config.measurements.rangeLimitMin", .dbl, .req, .dbl⟩,
  ⟨"config.measurements.rangeLimitBuffer", .dbl, .req, .dbl⟩,
  ⟨"config.measurements.probDetection", .dbl, .req, .dbl⟩,
  ⟨"config.measurements.clutterIntensity", .dbl, .req, .dbl⟩,
  ⟨"config.measurements.varzr", .dbl, .req, .dbl⟩,
  ⟨"config.measurements.varzb", .dbl, .req, .dbl⟩,
  ⟨"config.optimizer.iterations", .int, .req, .int⟩,
  ⟨"config.optimizer.ospaC", .dbl, .req, .dbl⟩,
  ⟨"config.optimizer.useDataAssociation", .int, (.num 0), .flag⟩,
  ⟨"config.optimizer.initMapProb", .dbl, .req, .dbl⟩,
  ⟨"config.optimizer.predict.processNoiseInflationFactor", .dbl, .req, .dbl⟩,
  ⟨"config.optimizer.update.measurementNoiseInflationFactor", .dbl, .req, .dbl⟩,
  ⟨"config.optimizer.MLThreshold", .dbl, .req, .dbl⟩]

/-- `readConfigFile`, src/rfspsoslam1dSim.cpp 83-133. -/
def pso1dReads : List Rd := [
  ⟨"config.logging.logToFile", .int, (.num 0), .flag⟩,
  ⟨"config.logging.logDirPrefix", .str, (.text "./".toList), .str⟩,
  ⟨"config.timesteps", .int, .req, .int⟩,
  ⟨"config.sec_per_timestep", .dbl, .req, .dbl⟩,
  ⟨"config.trajectory.nSegments", .int, .req, .int⟩,
  ⟨"config.trajectory.max_dx_per_sec", .dbl, .req, .dbl⟩,
  ⟨"config.trajectory.min_dx_per_sec", .dbl, .req, .dbl⟩,
  ⟨"config.trajectory.vardx", .dbl, .req, .dbl⟩,
  ⟨"config.landmarks.nLandmarks", .int, .req, .int⟩,
  ⟨"config.measurements.rangeLimitMax", .dbl, .req, .dbl⟩,
  ⟨"config.measurements.rangeLimitMin", .dbl, .req, .dbl⟩,
  ⟨"config.measurements.rangeLimitBuffer", .dbl, .req, .dbl⟩,
  ⟨"config.measurements.probDetection", .dbl, .req, .dbl⟩,
  ⟨"config.measurements.clutterIntensity", .dbl, .req, .dbl⟩,
  ⟨"config.measurements.varzr", .dbl, .req, .dbl⟩,
  ⟨"config.optimizer.nParticles", .int, (.num 200), .int⟩,
  ⟨"config.optimizer.iterations", .int, (.num 200), .int⟩,
  ⟨"config.optimizer.ospaC", .dbl, (.num (1)), .dbl⟩,
  ⟨"config.optimizer.initMapProb", .dbl, (.num (1 / 100)), .dbl⟩,
  ⟨"config.optimizer.w", .dbl, .req, .dbl⟩,
  ⟨"config.optimizer.phi_global", .dbl, .req, .dbl⟩,
  ⟨"config.optimizer.card_phi_global", .dbl, .req, .dbl⟩,
  ⟨"config.optimizer.phi_particle", .dbl, .req, .dbl⟩,
  ⟨"config.optimizer.card_phi_particle", .dbl, .req, .dbl⟩,
  ⟨"config.optimizer.K", .int, .req, .int⟩,
  ⟨"config.optimizer.global", .bool, .req, .bool⟩,
  ⟨"config.optimizer.optimizeIter", .int, .req, .int⟩,
  ⟨"config.optimizer.predict.processNoiseInflationFactor", .dbl, (.num (1)), .dbl⟩,
  ⟨"config.optimizer.update.measurementNoiseInflationFactor", .dbl, (.num (1)), .dbl⟩,
  ⟨"config.optimizer.MLThreshold", .dbl, .req, .dbl⟩]

/-- `readConfigFile`, src/rfspsoorbslam1dSim.cpp 86-136. -/
def psoOrbReads : List Rd := [
  ⟨"config.logging.logToFile", .int, (.num 0), .flag⟩,
  ⟨"config.logging.logDirPrefix", .str, (.text "./".toList), .str⟩,
  ⟨"config.timesteps", .int, .req, .int⟩,
  ⟨"config.sec_per_timestep", .dbl, .req, .dbl⟩,
  ⟨"config.trajectory.nSegments", .int, .req, .int⟩,
  ⟨"config.trajectory.max_dx_per_sec", .dbl, .req, .dbl⟩,
  ⟨"config.trajectory.min_dx_per_sec", .dbl, .req, .dbl⟩,
  ⟨"config.trajectory.vardx", .dbl, .req, .dbl⟩,
  ⟨"config.landmarks.nLandmarks", .int, .req, .int⟩,
  ⟨"config.measurements.rangeLimitMax", .dbl, .req, .dbl⟩,
  ⟨"config.measurements.rangeLimitMin", .dbl, .req, .dbl⟩,
  ⟨"config.measurements.rangeLimitBuffer", .dbl, .req, .dbl⟩,
  ⟨"config.measurements.probDetection", .dbl, .req, .dbl⟩,
  ⟨"config.measurements.clutterIntensity", .dbl, .req, .dbl⟩,
  ⟨"config.measurements.varzr", .dbl, .req, .dbl⟩,
  ⟨"config.optimizer.nParticles", .int, (.num 200), .int⟩,
  ⟨"config.optimizer.iterations", .int, (.num 200), .int⟩,
  ⟨"config.optimizer.ospaC", .dbl, (.num (1)), .dbl⟩,
  ⟨"config.optimizer.initMapProb", .dbl, (.num (1 / 100)), .dbl⟩,
  ⟨"config.optimizer.w", .dbl, .req, .dbl⟩,
  ⟨"config.optimizer.phi_global", .dbl, .req, .dbl⟩,
  ⟨"config.optimizer.card_phi_global", .dbl, .req, .dbl⟩,
  ⟨"config.optimizer.phi_particle", .dbl, .req, .dbl⟩,
  ⟨"config.optimizer.card_phi_particle", .dbl, .req, .dbl⟩,
  ⟨"config.optimizer.K", .int, .req, .int⟩,
  ⟨"config.optimizer.global", .bool, .req, .bool⟩,
  ⟨"config.optimizer.optimizeIter", .int, .req, .int⟩,
  ⟨"config.optimizer.predict.processNoiseInflationFactor", .dbl, (.num (1)), .dbl⟩,
  ⟨"config.optimizer.update.measurementNoiseInflationFactor", .dbl, (.num (1)), .dbl⟩,
  ⟨"config.optimizer.MLThreshold", .dbl, (.num (1 / 10000)), .dbl⟩]

/-- `readConfigFile`, src/rfspsoslam2dSim.cpp 83-138. -/
def pso2dReads : List Rd := [
  ⟨"config.logging.logToFile", .int, (.num 0), .flag⟩,
  ⟨"config.logging.logDirPrefix", .str, (.text "./".toList), .str⟩,
  ⟨"config.timesteps", .int, .req, .int⟩,
  ⟨"config.sec_per_timestep", .dbl, .req, .dbl⟩,
  ⟨"config.trajectory.nSegments", .int, .req, .int⟩,
  ⟨"config.trajectory.max_dx_per_sec", .dbl, .req, .dbl⟩,
  ⟨"config.trajectory.max_dy_per_sec", .dbl, .req, .dbl⟩,
  ⟨"config.trajectory.max_dz_per_sec", .dbl, .req, .dbl⟩,
  ⟨"config.trajectory.min_dx_per_sec", .dbl, .req, .dbl⟩,
  ⟨"config.trajectory.vardx", .dbl, .req, .dbl⟩,
  ⟨"config.trajectory.vardy", .dbl, .req, .dbl⟩,
  ⟨"config.trajectory.vardz", .dbl, .req, .dbl⟩,
  ⟨"config.landmarks.nLandmarks", .int, .req, .int⟩,
  ⟨"config.measurements.rangeLimitMax", .dbl, .req, .dbl⟩,
  ⟨"config.measurements.rangeLimitMin", .dbl, .req, .dbl⟩,
  ⟨"config.measurements.rangeLimitBuffer", .dbl, .req, .dbl⟩,
  ⟨"config.measurements.probDetection", .dbl, .req, .dbl⟩,
  ⟨"config.measurements.clutterIntensity", .dbl, .req, .dbl⟩,
  ⟨"config.measurements.varzr", .dbl, .req, .dbl⟩,
  ⟨"config.measurements.varzb", .dbl, .req, .dbl⟩,
  ⟨"config.optimizer.nParticles", .int, (.num 200), .int⟩,
  ⟨"config.optimizer.iterations", .int, (.num 200), .int⟩,
  ⟨"config.optimizer.ospaC", .dbl, (.num (1)), .dbl⟩,
  ⟨"config.optimizer.initMapProb", .dbl, (.num (1 / 100)), .dbl⟩,
  ⟨"config.optimizer.w", .dbl, .req, .dbl⟩,
  ⟨"config.optimizer.phi_global", .dbl, .req, .dbl⟩,
  ⟨"config.optimizer.card_phi_global", .dbl, .req, .dbl⟩,
  ⟨"config.optimizer.phi_particle", .dbl, .req, .dbl⟩,
  ⟨"config.optimizer.card_phi_particle", .dbl, .req, .dbl⟩,
  ⟨"config.optimizer.K", .int, .req, .int⟩,
  ⟨"config.optimizer.global", .bool, .req, .bool⟩,
  ⟨"config.optimizer.optimizeIter", .int, .req, .int⟩,
  ⟨"config.optimizer.predict.processNoiseInflationFactor", .dbl, (.num (1)), .dbl⟩,
  ⟨"config.optimizer.update.measurementNoiseInflationFactor", .dbl, (.num (1)), .dbl⟩,
  ⟨"config.optimizer.MLThreshold", .dbl, .req, .dbl⟩]

/-- The statements of each program. -/
def reads : Prog → List Rd
  | .phd2d => phd2dReads | .lmbCity => lmbCityReads | .fast2d => fast2dReads | .fastVP => fastVPReads | .phdVP => phdVPReads
  | .cbm2d => cbm2dReads | .lmb2d => lmb2dReads | .phdAmp => phdAmpReads | .phd6d => phd6dReads | .ceres1d => ceres1dReads
  | .ceres2d => ceres2dReads | .pso1d => pso1dReads | .psoOrb => psoOrbReads | .pso2d => pso2dReads

/-- `if(*s.rbegin() != '/') s += '/'`. -/
def addSlash (s : Text) : Except CErr Text :=
  match s.getLast? with
  | none => .error .emptyString
  | some c => .ok (if c = '/' then s else s ++ ['/'])

/-- Whether the program completes the directory of the logs with a slash: include/RBPHDSLAM_2D.hpp 94, include/RBLMBSLAM_2D.hpp 94, src/fastslam2dSim.cpp 92,
src/fastslam_VictoriaPark.cpp 109, src/rbphdslam_VictoriaPark.cpp 109, src/rbphdslam2dSim_amplitude.cpp 92, src/rbphdslam6dSim.cpp 96. -/
def slash : Prog → Bool
  | .phd2d | .lmbCity | .fast2d | .fastVP | .phdVP | .phdAmp | .phd6d => true
  | .cbm2d | .lmb2d | .ceres1d | .ceres2d | .pso1d | .psoOrb | .pso2d => false

/-- Whether the program reads a data directory and the list of detection probabilities: src/fastslam_VictoriaPark.cpp 92-95, 135-138, src/rbphdslam_VictoriaPark.cpp 92-95, 135-138. -/
def park : Prog → Bool
  | .fastVP | .phdVP => true
  | _ => false

/-- `BOOST_FOREACH(v, pt.get_child("config.measurements.Pd")) Pd_.push_back(lexical_cast<double>(v.second.data()))`. -/
def readPd (t : Tree) : Except CErr (List ℚ) :=
  match t.pd with
  | none => .error (.badPath "config.measurements.Pd")
  | some l => l.mapM fun c => match castDbl c.text with | some q => .ok q | none => .error .badCast

/-- The variables of a program after `readConfigFile`. -/
structure Cfg where
  env : Env
  logDir : Text
  dataDir : Text
  pd : List ℚ

def textOf (env : Env) (o : String) : Text :=
  match env o with
  | some (.text s) => s
  | _ => []

/-- The directory of the logs. -/
def logDirOf (p : Prog) (env : Env) : Except CErr Text :=
  match slash p with
  | true => addSlash (textOf env "config.logging.logDirPrefix")
  | false => .ok (textOf env "config.logging.logDirPrefix")

/-- The directory of the data. -/
def dataDirOf (p : Prog) (env : Env) : Except CErr Text :=
  match park p with
  | true => addSlash (textOf env "config.dataset.directory")
  | false => .ok []

/-- The detection probabilities. -/
def pdOf (p : Prog) (t : Tree) : Except CErr (List ℚ) :=
  match park p with
  | true => readPd t
  | false => .ok []

/-- `readConfigFile`. Simplification: the directories are completed and the detection probabilities are read after the other options, so that only the choice among several
errors may differ. -/
def load (p : Prog) (t : Tree) : Except CErr Cfg :=
  match readAll t (reads p) with
  | .error e => .error e
  | .ok env =>
    match logDirOf p env with
    | .error e => .error e
    | .ok logDir =>
      match dataDirOf p env with
      | .error e => .error e
      | .ok dataDir =>
        match pdOf p t with
        | .error e => .error e
        | .ok pd => .ok ⟨env, logDir, dataDir, pd⟩

/-- A log file: `logDirPrefix_ + name`. -/
def logFile (c : Cfg) (name : Text) : Text := c.logDir ++ name

/-- Where a value goes: the diagonals of the noise matrices that `setup` hands to the robot process model, landmark process model and measurement model; a field of the configuration
of the filter, Kalman filter, measurement model or optimiser that the component reads; a use by the main program itself (generation of data, loops, logs). -/
inductive Slot
  | Q (i : Nat) | Qlm (i : Nat) | R (i : Nat)
  | field (o : String)
  | use (o : String)
  deriving DecidableEq

def fields (l : List String) : List (Slot × List String) := l.map fun o => (.field o, [o])

def uses (l : List String) : List (Slot × List String) := l.map fun o => (.use o, [o])

/-- `setup` of include/RBPHDSLAM_2D.hpp, lines 640-693, and the other uses of the variables in this program. -/
def phd2dWiring : List (Slot × List String) :=
  [(.Q 0, ["config.trajectory.vardx", "config.filter.predict.processNoiseInflationFactor", "config.sec_per_timestep", "config.sec_per_timestep"]),
   (.Q 1, ["config.trajectory.vardy", "config.filter.predict.processNoiseInflationFactor", "config.sec_per_timestep", "config.sec_per_timestep"]),
   (.Q 2, ["config.trajectory.vardz", "config.filter.predict.processNoiseInflationFactor", "config.sec_per_timestep", "config.sec_per_timestep"]),
   (.Qlm 0, ["config.landmarks.varlmx", "config.sec_per_timestep", "config.sec_per_timestep"]),
   (.Qlm 1, ["config.landmarks.varlmy", "config.sec_per_timestep", "config.sec_per_timestep"]),
   (.R 0, ["config.measurements.varzx", "config.filter.update.measurementNoiseInflationFactor"]),
   (.R 1, ["config.measurements.varzy", "config.filter.update.measurementNoiseInflationFactor"])] ++
  fields ["config.measurements.rangeLimitMax", "config.measurements.rangeLimitMin", "config.measurements.rangeLimitBuffer", "config.measurements.probDetection", "config.measurements.clutterIntensity", "config.filter.nParticles", "config.filter.predict.birthGaussianWeight", "config.filter.update.GaussianCreateInnovMDThreshold", "config.filter.weighting.nEvalPt", "config.filter.weighting.minWeight", "config.filter.weighting.threshold", "config.filter.weighting.useClusterProcess", "config.filter.resampling.effNParticle", "config.filter.resampling.minTimesteps", "config.filter.merge.threshold", "config.filter.merge.covInflationFactor", "config.filter.prune.threshold"] ++
  uses ["config.logging.logResultsToFile", "config.logging.logTimingToFile", "config.logging.logDirPrefix", "config.timesteps", "config.sec_per_timestep", "config.trajectory.nSegments", "config.trajectory.max_dx_per_sec", "config.trajectory.max_dy_per_sec", "config.trajectory.max_dz_per_sec", "config.trajectory.min_dx_per_sec", "config.trajectory.vardx", "config.trajectory.vardy", "config.trajectory.vardz", "config.landmarks.nLandmarks", "config.measurements.rangeLimitMax", "config.measurements.rangeLimitMin", "config.measurements.probDetection", "config.measurements.clutterIntensity", "config.measurements.varzy", "config.measurements.varzx", "config.filter.nParticles"]

/-- `setup` of src/fastslam2dSim.cpp, lines 438-482, and the other uses of the variables in this program. -/
def fast2dWiring : List (Slot × List String) :=
  [(.Q 0, ["config.trajectory.vardx", "config.filter.predict.processNoiseInflationFactor", "config.sec_per_timestep", "config.sec_per_timestep"]),
   (.Q 1, ["config.trajectory.vardy", "config.filter.predict.processNoiseInflationFactor", "config.sec_per_timestep", "config.sec_per_timestep"]),
   (.Q 2, ["config.trajectory.vardz", "config.filter.predict.processNoiseInflationFactor", "config.sec_per_timestep", "config.sec_per_timestep"]),
   (.Qlm 0, ["config.landmarks.varlmx", "config.sec_per_timestep", "config.sec_per_timestep"]),
   (.Qlm 1, ["config.landmarks.varlmy", "config.sec_per_timestep", "config.sec_per_timestep"]),
   (.R 0, ["config.measurements.varzr", "config.filter.update.measurementNoiseInflationFactor"]),
   (.R 1, ["config.measurements.varzb", "config.filter.update.measurementNoiseInflationFactor"])] ++
  fields ["config.measurements.rangeLimitMax", "config.measurements.rangeLimitMin", "config.measurements.rangeLimitBuffer", "config.measurements.probDetection", "config.measurements.clutterIntensity", "config.filter.nParticles", "config.filter.update.maxNDataAssocHypotheses", "config.filter.update.maxDataAssocLogLikelihoodDiff", "config.filter.update.KalmanFilter.innovationThreshold.range", "config.filter.update.KalmanFilter.innovationThreshold.bearing", "config.filter.weighting.minLogMeasurementLikelihood", "config.filter.resampling.effNParticle", "config.filter.resampling.minTimesteps", "config.filter.prune.threshold"] ++
  uses ["config.logging.logResultsToFile", "config.logging.logTimingToFile", "config.logging.logDirPrefix", "config.timesteps", "config.sec_per_timestep", "config.trajectory.nSegments", "config.trajectory.max_dx_per_sec", "config.trajectory.max_dy_per_sec", "config.trajectory.max_dz_per_sec", "config.trajectory.min_dx_per_sec", "config.trajectory.vardx", "config.trajectory.vardy", "config.trajectory.vardz", "config.landmarks.nLandmarks", "config.measurements.rangeLimitMax", "config.measurements.rangeLimitMin", "config.measurements.probDetection", "config.measurements.clutterIntensity", "config.measurements.varzr", "config.measurements.varzb", "config.filter.nParticles"]

/-- `setup` of src/fastslam_VictoriaPark.cpp, lines 356-394, and the other uses of the variables in this program. -/
def fastVPWiring : List (Slot × List String) :=
  [(.R 0, ["config.measurements.varzr", "config.filter.update.measurementNoiseInflationFactor"]),
   (.R 1, ["config.measurements.varzb", "config.filter.update.measurementNoiseInflationFactor"]),
   (.R 2, ["config.measurements.varzd", "config.filter.update.measurementNoiseInflationFactor"])] ++
  fields ["config.process.AckermanModel.rearWheelOffset", "config.process.AckermanModel.frontToRearDist", "config.process.AckermanModel.sensorOffset_x", "config.process.AckermanModel.sensorOffset_y", "config.measurements.rangeLimitMax", "config.measurements.rangeLimitMin", "config.measurements.bearingLimitMax", "config.measurements.bearingLimitMin", "config.measurements.expectedNClutter", "config.measurements.bufferZonePd", "config.measurements.varza", "config.filter.nParticles", "config.filter.update.maxNDataAssocHypotheses", "config.filter.update.maxDataAssocLogLikelihoodDiff", "config.filter.update.KalmanFilter.innovationThreshold.range", "config.filter.update.KalmanFilter.innovationThreshold.bearing", "config.filter.update.landmarkCandidate.MeasurementSupportDist", "config.filter.update.landmarkCandidate.MeasurementCountThreshold", "config.filter.update.landmarkCandidate.CurrentMeasurementCountThreshold", "config.filter.update.landmarkCandidate.MeasurementCheckThreshold", "config.filter.update.landmarkLockWeight", "config.filter.weighting.minLogMeasurementLikelihood", "config.filter.resampling.effNParticle", "config.filter.resampling.minTimesteps", "config.filter.resampling.minMeasurements", "config.filter.prune.threshold", "config.filter.prune.nMeasurementsThreshold"] ++
  uses ["config.dataset.directory", "config.dataset.filename.gps", "config.dataset.filename.detection", "config.dataset.filename.lidar", "config.dataset.filename.input", "config.dataset.filename.manager", "config.logging.logResultsToFile", "config.logging.logTimingToFile", "config.logging.logDirPrefix", "config.process.varuv", "config.process.varur", "config.process.ur_scale", "config.landmarks.varlmx", "config.landmarks.varlmy", "config.landmarks.varlmd", "config.measurements.rangeLimitMax", "config.measurements.rangeLimitMin", "config.measurements.bearingLimitMax", "config.measurements.bearingLimitMin", "config.measurements.addedClutter", "config.filter.nMsgToProcess"]

/-- `setup` of src/rbphdslam_VictoriaPark.cpp, lines 360-400, and the other uses of the variables in this program. -/
def phdVPWiring : List (Slot × List String) :=
  [(.R 0, ["config.measurements.varzr", "config.filter.update.measurementNoiseInflationFactor"]),
   (.R 1, ["config.measurements.varzb", "config.filter.update.measurementNoiseInflationFactor"]),
   (.R 2, ["config.measurements.varzd", "config.filter.update.measurementNoiseInflationFactor"])] ++
  fields ["config.process.AckermanModel.rearWheelOffset", "config.process.AckermanModel.frontToRearDist", "config.process.AckermanModel.sensorOffset_x", "config.process.AckermanModel.sensorOffset_y", "config.measurements.rangeLimitMax", "config.measurements.rangeLimitMin", "config.measurements.bearingLimitMax", "config.measurements.bearingLimitMin", "config.measurements.expectedNClutter", "config.measurements.bufferZonePd", "config.measurements.varza", "config.filter.nParticles", "config.filter.predict.birthGaussian.Weight", "config.filter.predict.birthGaussian.SupportMeasurementDist", "config.filter.predict.birthGaussian.SupportMeasurementThreshold", "config.filter.predict.birthGaussian.CheckCountThreshold", "config.filter.predict.birthGaussian.CurrentMeasurementCountThreshold", "config.filter.update.KalmanFilter.innovationThreshold.range", "config.filter.update.KalmanFilter.innovationThreshold.bearing", "config.filter.update.GaussianCreateInnovMDThreshold", "config.filter.weighting.nEvalPt", "config.filter.weighting.minWeight", "config.filter.weighting.threshold", "config.filter.weighting.useClusterProcess", "config.filter.resampling.effNParticle", "config.filter.resampling.minTimesteps", "config.filter.resampling.minMeasurements", "config.filter.merge.threshold", "config.filter.merge.covInflationFactor", "config.filter.prune.threshold"] ++
  uses ["config.dataset.directory", "config.dataset.filename.gps", "config.dataset.filename.detection", "config.dataset.filename.lidar", "config.dataset.filename.input", "config.dataset.filename.manager", "config.logging.logResultsToFile", "config.logging.logTimingToFile", "config.logging.logDirPrefix", "config.process.varuv", "config.process.varur", "config.process.ur_scale", "config.landmarks.varlmx", "config.landmarks.varlmy", "config.landmarks.varlmd", "config.measurements.rangeLimitMax", "config.measurements.rangeLimitMin", "config.measurements.bearingLimitMax", "config.measurements.bearingLimitMin", "config.measurements.addedClutter", "config.filter.nMsgToProcess"]

/-- `setup` of src/rbcbmemberslam2dSim.cpp, lines 437-485, and the other uses of the variables in this program. -/
def cbm2dWiring : List (Slot × List String) :=
  [(.Q 0, ["config.trajectory.vardx", "config.filter.predict.processNoiseInflationFactor", "config.sec_per_timestep", "config.sec_per_timestep"]),
   (.Q 1, ["config.trajectory.vardy", "config.filter.predict.processNoiseInflationFactor", "config.sec_per_timestep", "config.sec_per_timestep"]),
   (.Q 2, ["config.trajectory.vardz", "config.filter.predict.processNoiseInflationFactor", "config.sec_per_timestep", "config.sec_per_timestep"]),
   (.Qlm 0, ["config.landmarks.varlmx", "config.sec_per_timestep", "config.sec_per_timestep"]),
   (.Qlm 1, ["config.landmarks.varlmy", "config.sec_per_timestep", "config.sec_per_timestep"]),
   (.R 0, ["config.measurements.varzr", "config.filter.update.measurementNoiseInflationFactor"]),
   (.R 1, ["config.measurements.varzb", "config.filter.update.measurementNoiseInflationFactor"])] ++
  fields ["config.measurements.rangeLimitMax", "config.measurements.rangeLimitMin", "config.measurements.rangeLimitBuffer", "config.measurements.probDetection", "config.measurements.clutterIntensity", "config.filter.nParticles", "config.filter.predict.birthTrackPE", "config.filter.update.KalmanFilter.innovationThreshold.range", "config.filter.update.KalmanFilter.innovationThreshold.bearing", "config.filter.update.GaussianCreateInnovMDThreshold", "config.filter.weighting.threshold", "config.filter.resampling.effNParticle", "config.filter.resampling.minTimesteps", "config.filter.merge.threshold", "config.filter.merge.covInflationFactor", "config.filter.prune.gaussianthreshold", "config.filter.prune.trackthreshold"] ++
  uses ["config.logging.logToFile", "config.logging.logDirPrefix", "config.timesteps", "config.sec_per_timestep", "config.trajectory.nSegments", "config.trajectory.max_dx_per_sec", "config.trajectory.max_dy_per_sec", "config.trajectory.max_dz_per_sec", "config.trajectory.min_dx_per_sec", "config.trajectory.vardx", "config.trajectory.vardy", "config.trajectory.vardz", "config.landmarks.nLandmarks", "config.measurements.rangeLimitMax", "config.measurements.rangeLimitMin", "config.measurements.probDetection", "config.measurements.clutterIntensity", "config.measurements.varzr", "config.measurements.varzb", "config.filter.nParticles"]

/-- `setup` of src/rblmbslam2dSim.cpp, lines 436-483, and the other uses of the variables in this program. -/
def lmb2dWiring : List (Slot × List String) :=
  [(.Q 0, ["config.trajectory.vardx", "config.filter.predict.processNoiseInflationFactor", "config.sec_per_timestep", "config.sec_per_timestep"]),
   (.Q 1, ["config.trajectory.vardy", "config.filter.predict.processNoiseInflationFactor", "config.sec_per_timestep", "config.sec_per_timestep"]),
   (.Q 2, ["config.trajectory.vardz", "config.filter.predict.processNoiseInflationFactor", "config.sec_per_timestep", "config.sec_per_timestep"]),
   (.Qlm 0, ["config.landmarks.varlmx", "config.sec_per_timestep", "config.sec_per_timestep"]),
   (.Qlm 1, ["config.landmarks.varlmy", "config.sec_per_timestep", "config.sec_per_timestep"]),
   (.R 0, ["config.measurements.varzr", "config.filter.update.measurementNoiseInflationFactor"]),
   (.R 1, ["config.measurements.varzb", "config.filter.update.measurementNoiseInflationFactor"])] ++
  fields ["config.measurements.rangeLimitMax", "config.measurements.rangeLimitMin", "config.measurements.rangeLimitBuffer", "config.measurements.probDetection", "config.measurements.clutterIntensity", "config.filter.nParticles", "config.filter.predict.birthTrackMaxPE", "config.filter.predict.birthTrackMinPE", "config.filter.predict.expectedBirths", "config.filter.update.KalmanFilter.innovationThreshold.range", "config.filter.update.KalmanFilter.innovationThreshold.bearing", "config.filter.update.GaussianCreateInnovMDThreshold", "config.filter.weighting.threshold", "config.filter.resampling.effNParticle", "config.filter.resampling.minTimesteps", "config.filter.merge.threshold", "config.filter.merge.covInflationFactor", "config.filter.prune.gaussianthreshold", "config.filter.prune.trackthreshold"] ++
  uses ["config.logging.logToFile", "config.logging.logDirPrefix", "config.timesteps", "config.sec_per_timestep", "config.trajectory.nSegments", "config.trajectory.max_dx_per_sec", "config.trajectory.max_dy_per_sec", "config.trajectory.max_dz_per_sec", "config.trajectory.min_dx_per_sec", "config.trajectory.vardx", "config.trajectory.vardy", "config.trajectory.vardz", "config.landmarks.nLandmarks", "config.measurements.rangeLimitMax", "config.measurements.rangeLimitMin", "config.measurements.probDetection", "config.measurements.clutterIntensity", "config.measurements.varzr", "config.measurements.varzb", "config.filter.nParticles"]

/-- `setup` of src/rbphdslam2dSim_amplitude.cpp, lines 450-500, and the other uses of the variables in this program. -/
def phdAmpWiring : List (Slot × List String) :=
  [(.Q 0, ["config.trajectory.vardx", "config.filter.predict.processNoiseInflationFactor", "config.sec_per_timestep", "config.sec_per_timestep"]),
   (.Q 1, ["config.trajectory.vardy", "config.filter.predict.processNoiseInflationFactor", "config.sec_per_timestep", "config.sec_per_timestep"]),
   (.Q 2, ["config.trajectory.vardz", "config.filter.predict.processNoiseInflationFactor", "config.sec_per_timestep", "config.sec_per_timestep"]),
   (.Qlm 0, ["config.landmarks.varlmx", "config.sec_per_timestep", "config.sec_per_timestep"]),
   (.Qlm 1, ["config.landmarks.varlmy", "config.sec_per_timestep", "config.sec_per_timestep"]),
   (.R 0, ["config.measurements.varzr", "config.filter.update.measurementNoiseInflationFactor"]),
   (.R 1, ["config.measurements.varzb", "config.filter.update.measurementNoiseInflationFactor"])] ++
  fields ["config.measurements.rangeLimitMax", "config.measurements.rangeLimitMin", "config.measurements.rangeLimitBuffer", "config.measurements.probDetection", "config.measurements.clutterIntensity", "config.filter.nParticles", "config.filter.predict.birthGaussianWeight", "config.filter.update.KalmanFilter.innovationThreshold.range", "config.filter.update.KalmanFilter.innovationThreshold.bearing", "config.filter.update.GaussianCreateInnovMDThreshold", "config.filter.weighting.nEvalPt", "config.filter.weighting.minWeight", "config.filter.weighting.threshold", "config.filter.weighting.useClusterProcess", "config.filter.resampling.effNParticle", "config.filter.resampling.minTimesteps", "config.filter.merge.threshold", "config.filter.merge.covInflationFactor", "config.filter.prune.threshold"] ++
  uses ["config.logging.logToFile", "config.logging.logDirPrefix", "config.timesteps", "config.sec_per_timestep", "config.trajectory.nSegments", "config.trajectory.max_dx_per_sec", "config.trajectory.max_dy_per_sec", "config.trajectory.max_dz_per_sec", "config.trajectory.min_dx_per_sec", "config.trajectory.vardx", "config.trajectory.vardy", "config.trajectory.vardz", "config.landmarks.nLandmarks", "config.measurements.rangeLimitMax", "config.measurements.rangeLimitMin", "config.measurements.probDetection", "config.measurements.clutterIntensity", "config.measurements.varzr", "config.measurements.varzb", "config.filter.nParticles"]

/-- `setup` of src/rbphdslam6dSim.cpp, lines 518-591, and the other uses of the variables in this program. -/
def phd6dWiring : List (Slot × List String) :=
  [(.Q 0, ["config.trajectory.vardx", "config.filter.predict.processNoiseInflationFactor", "config.sec_per_timestep", "config.sec_per_timestep"]),
   (.Q 1, ["config.trajectory.vardy", "config.filter.predict.processNoiseInflationFactor", "config.sec_per_timestep", "config.sec_per_timestep"]),
   (.Q 2, ["config.trajectory.vardz", "config.filter.predict.processNoiseInflationFactor", "config.sec_per_timestep", "config.sec_per_timestep"]),
   (.Q 3, ["config.trajectory.vardqx", "config.filter.predict.processNoiseInflationFactor", "config.sec_per_timestep", "config.sec_per_timestep"]),
   (.Q 4, ["config.trajectory.vardqy", "config.filter.predict.processNoiseInflationFactor", "config.sec_per_timestep", "config.sec_per_timestep"]),
   (.Q 5, ["config.trajectory.vardqz", "config.filter.predict.processNoiseInflationFactor", "config.sec_per_timestep", "config.sec_per_timestep"]),
   (.Q 6, ["config.trajectory.vardqw", "config.filter.predict.processNoiseInflationFactor", "config.sec_per_timestep", "config.sec_per_timestep"]),
   (.Qlm 0, ["config.landmarks.varlmx", "config.sec_per_timestep", "config.sec_per_timestep"]),
   (.Qlm 1, ["config.landmarks.varlmy", "config.sec_per_timestep", "config.sec_per_timestep"]),
   (.Qlm 2, ["config.landmarks.varlmz", "config.sec_per_timestep", "config.sec_per_timestep"]),
   (.R 0, ["config.measurements.varzx", "config.filter.update.measurementNoiseInflationFactor"]),
   (.R 1, ["config.measurements.varzy", "config.filter.update.measurementNoiseInflationFactor"]),
   (.R 2, ["config.measurements.varzz", "config.filter.update.measurementNoiseInflationFactor"])] ++
  fields ["config.use_gui", "config.measurements.rangeLimitMax", "config.measurements.rangeLimitMin", "config.measurements.rangeLimitBuffer", "config.measurements.probDetection", "config.measurements.clutterIntensity", "config.filter.nParticles", "config.filter.predict.birthGaussianWeight", "config.filter.update.GaussianCreateInnovMDThreshold", "config.filter.weighting.nEvalPt", "config.filter.weighting.minWeight", "config.filter.weighting.threshold", "config.filter.weighting.useClusterProcess", "config.filter.resampling.effNParticle", "config.filter.resampling.minTimesteps", "config.filter.merge.threshold", "config.filter.merge.covInflationFactor", "config.filter.prune.threshold"] ++
  uses ["config.logging.logResultsToFile", "config.logging.logTimingToFile", "config.logging.logDirPrefix", "config.use_gui", "config.timesteps", "config.sec_per_timestep", "config.trajectory.nSegments", "config.trajectory.max_dx_per_sec", "config.trajectory.max_dy_per_sec", "config.trajectory.max_dz_per_sec", "config.trajectory.max_dqx_per_sec", "config.trajectory.max_dqy_per_sec", "config.trajectory.max_dqz_per_sec", "config.trajectory.max_dqw_per_sec", "config.trajectory.min_dx_per_sec", "config.trajectory.vardx", "config.trajectory.vardy", "config.trajectory.vardz", "config.trajectory.vardqx", "config.trajectory.vardqy", "config.trajectory.vardqz", "config.trajectory.vardqw", "config.landmarks.nLandmarks", "config.measurements.rangeLimitMax", "config.measurements.rangeLimitMin", "config.measurements.probDetection", "config.measurements.clutterIntensity", "config.measurements.varzx", "config.measurements.varzy", "config.measurements.varzz", "config.filter.nParticles"]

/-- `setup` of src/rfsceresslam1dSim.cpp, lines 446-482, and the other uses of the variables in this program. The process noise set there is replaced in `run`, lines 528-532. -/
def ceres1dWiring : List (Slot × List String) :=
  [(.Q 0, ["config.trajectory.vardx", "config.optimizer.predict.processNoiseInflationFactor", "config.sec_per_timestep", "config.sec_per_timestep"]),
   (.R 0, ["config.measurements.varzr", "config.optimizer.update.measurementNoiseInflationFactor"])] ++
  fields ["config.measurements.rangeLimitMax", "config.measurements.rangeLimitMin", "config.measurements.rangeLimitBuffer", "config.measurements.probDetection", "config.measurements.clutterIntensity", "config.optimizer.useDataAssociation", "config.optimizer.initMapProb", "config.optimizer.MLThreshold"] ++
  uses ["config.logging.logToFile", "config.logging.logDirPrefix", "config.timesteps", "config.sec_per_timestep", "config.trajectory.nSegments", "config.trajectory.max_dx_per_sec", "config.trajectory.min_dx_per_sec", "config.trajectory.vardx", "config.landmarks.nLandmarks", "config.measurements.rangeLimitMax", "config.measurements.rangeLimitMin", "config.measurements.probDetection", "config.measurements.clutterIntensity", "config.measurements.varzr", "config.optimizer.useDataAssociation", "config.optimizer.predict.processNoiseInflationFactor"]

/-- `setup` of src/rfsceresslam2dSim.cpp, lines 549-586, and the other uses of the variables in this program. -/
def ceres2dWiring : List (Slot × List String) :=
  [(.Q 0, ["config.trajectory.vardx", "config.optimizer.predict.processNoiseInflationFactor", "config.sec_per_timestep", "config.sec_per_timestep"]),
   (.Q 1, ["config.trajectory.vardy", "config.optimizer.predict.processNoiseInflationFactor", "config.sec_per_timestep", "config.sec_per_timestep"]),
   (.Q 2, ["config.trajectory.vardz", "config.optimizer.predict.processNoiseInflationFactor", "config.sec_per_timestep", "config.sec_per_timestep"]),
   (.R 0, ["config.measurements.varzr", "config.optimizer.update.measurementNoiseInflationFactor"]),
   (.R 1, ["config.measurements.varzb", "config.optimizer.update.measurementNoiseInflationFactor"])] ++
  fields ["config.measurements.rangeLimitMax", "config.measurements.rangeLimitMin", "config.measurements.rangeLimitBuffer", "config.measurements.probDetection", "config.measurements.clutterIntensity", "config.optimizer.useDataAssociation", "config.optimizer.initMapProb", "config.optimizer.MLThreshold"] ++
  uses ["config.logging.logToFile", "config.logging.logDirPrefix", "config.timesteps", "config.sec_per_timestep", "config.trajectory.nSegments", "config.trajectory.max_dx_per_sec", "config.trajectory.max_dy_per_sec", "config.trajectory.max_dz_per_sec", "config.trajectory.min_dx_per_sec", "config.trajectory.vardx", "config.trajectory.vardy", "config.trajectory.vardz", "config.landmarks.nLandmarks", "config.measurements.rangeLimitMax", "config.measurements.rangeLimitMin", "config.measurements.probDetection", "config.measurements.clutterIntensity", "config.measurements.varzr", "config.measurements.varzb", "config.optimizer.useDataAssociation", "config.optimizer.predict.processNoiseInflationFactor"]

/-- `setup` of src/rfspsoslam1dSim.cpp, lines 423-468, and the other uses of the variables in this program. -/
def pso1dWiring : List (Slot × List String) :=
  [(.Q 0, ["config.trajectory.vardx", "config.optimizer.predict.processNoiseInflationFactor", "config.sec_per_timestep", "config.sec_per_timestep"]),
   (.R 0, ["config.measurements.varzr", "config.optimizer.update.measurementNoiseInflationFactor"])] ++
  fields ["config.measurements.rangeLimitMax", "config.measurements.rangeLimitMin", "config.measurements.rangeLimitBuffer", "config.measurements.probDetection", "config.measurements.clutterIntensity", "config.optimizer.nParticles", "config.optimizer.ospaC", "config.optimizer.initMapProb", "config.optimizer.w", "config.optimizer.phi_global", "config.optimizer.card_phi_global", "config.optimizer.phi_particle", "config.optimizer.card_phi_particle", "config.optimizer.K", "config.optimizer.global", "config.optimizer.MLThreshold"] ++
  uses ["config.logging.logToFile", "config.logging.logDirPrefix", "config.timesteps", "config.sec_per_timestep", "config.trajectory.nSegments", "config.trajectory.max_dx_per_sec", "config.trajectory.min_dx_per_sec", "config.trajectory.vardx", "config.landmarks.nLandmarks", "config.measurements.rangeLimitMax", "config.measurements.rangeLimitMin", "config.measurements.probDetection", "config.measurements.clutterIntensity", "config.measurements.varzr", "config.optimizer.nParticles", "config.optimizer.iterations", "config.optimizer.optimizeIter"]

/-- `setup` of src/rfspsoorbslam1dSim.cpp, lines 433-478, and the other uses of the variables in this program. -/
def psoOrbWiring : List (Slot × List String) :=
  [(.Q 0, ["config.trajectory.vardx", "config.optimizer.predict.processNoiseInflationFactor", "config.sec_per_timestep", "config.sec_per_timestep"]),
   (.R 0, ["config.measurements.varzr", "config.optimizer.update.measurementNoiseInflationFactor"])] ++
  fields ["config.measurements.rangeLimitMax", "config.measurements.rangeLimitMin", "config.measurements.rangeLimitBuffer", "config.measurements.probDetection", "config.measurements.clutterIntensity", "config.optimizer.nParticles", "config.optimizer.ospaC", "config.optimizer.initMapProb", "config.optimizer.w", "config.optimizer.phi_global", "config.optimizer.card_phi_global", "config.optimizer.phi_particle", "config.optimizer.card_phi_particle", "config.optimizer.K", "config.optimizer.global", "config.optimizer.MLThreshold"] ++
  uses ["config.logging.logToFile", "config.logging.logDirPrefix", "config.timesteps", "config.sec_per_timestep", "config.trajectory.nSegments", "config.trajectory.max_dx_per_sec", "config.trajectory.min_dx_per_sec", "config.trajectory.vardx", "config.landmarks.nLandmarks", "config.measurements.rangeLimitMax", "config.measurements.rangeLimitMin", "config.measurements.probDetection", "config.measurements.clutterIntensity", "config.measurements.varzr", "config.optimizer.nParticles", "config.optimizer.iterations", "config.optimizer.optimizeIter"]

/-- `setup` of src/rfspsoslam2dSim.cpp, lines 438-483, and the other uses of the variables in this program. -/
def pso2dWiring : List (Slot × List String) :=
  [(.Q 0, ["config.trajectory.vardx", "config.optimizer.predict.processNoiseInflationFactor", "config.sec_per_timestep", "config.sec_per_timestep"]),
   (.Q 1, ["config.trajectory.vardy", "config.optimizer.predict.processNoiseInflationFactor", "config.sec_per_timestep", "config.sec_per_timestep"]),
   (.Q 2, ["config.trajectory.vardz", "config.optimizer.predict.processNoiseInflationFactor", "config.sec_per_timestep", "config.sec_per_timestep"]),
   (.R 0, ["config.measurements.varzr", "config.optimizer.update.measurementNoiseInflationFactor"]),
   (.R 1, ["config.measurements.varzb", "config.optimizer.update.measurementNoiseInflationFactor"])] ++
  fields ["config.measurements.rangeLimitMax", "config.measurements.rangeLimitMin", "config.measurements.rangeLimitBuffer", "config.measurements.probDetection", "config.measurements.clutterIntensity", "config.optimizer.nParticles", "config.optimizer.ospaC", "config.optimizer.initMapProb", "config.optimizer.w", "config.optimizer.phi_global", "config.optimizer.card_phi_global", "config.optimizer.phi_particle", "config.optimizer.card_phi_particle", "config.optimizer.K", "config.optimizer.global", "config.optimizer.MLThreshold"] ++
  uses ["config.logging.logToFile", "config.logging.logDirPrefix", "config.timesteps", "config.sec_per_timestep", "config.trajectory.nSegments", "config.trajectory.max_dx_per_sec", "config.trajectory.max_dy_per_sec", "config.trajectory.max_dz_per_sec", "config.trajectory.min_dx_per_sec", "config.trajectory.vardx", "config.trajectory.vardy", "config.trajectory.vardz", "config.landmarks.nLandmarks", "config.measurements.rangeLimitMax", "config.measurements.rangeLimitMin", "config.measurements.probDetection", "config.measurements.clutterIntensity", "config.measurements.varzr", "config.measurements.varzb", "config.optimizer.nParticles", "config.optimizer.iterations", "config.optimizer.optimizeIter"]

/-- The settings that each program makes from its variables: the value of a slot is the product of the variables listed (texts: the text). Simplifications: the conversion of degrees and of
`dT_` to whole nanoseconds (`TimeStamp`) are left out. A configuration field that the component never reads is not a slot: the innovation thresholds of `KalmanFilter` for
`MeasurementModel_XY` (read in src/KalmanFilter.cpp for range-bearing measurements only), `importanceWeightingEvalPointCount_`, `importanceWeightingEvalPointTrackPE_` and `useClusterProcess_`
of `RBCBMeMBerFilter`, `ospa_c_` of `RFSCeresSLAM`. The programs on the CityTrees data are left out. -/
def wiring : Prog → List (Slot × List String)
  | .phd2d => phd2dWiring | .lmbCity => [] | .fast2d => fast2dWiring | .fastVP => fastVPWiring | .phdVP => phdVPWiring
  | .cbm2d => cbm2dWiring | .lmb2d => lmb2dWiring | .phdAmp => phdAmpWiring | .phd6d => phd6dWiring | .ceres1d => ceres1dWiring
  | .ceres2d => ceres2dWiring | .pso1d => pso1dWiring | .psoOrb => psoOrbWiring | .pso2d => pso2dWiring

/-- The number in a variable; 0 for a text. -/
def num (env : Env) (o : String) : ℚ :=
  match env o with
  | some (.num q) => q
  | _ => 0

/-- The value that a slot receives. -/
def slotVal (env : Env) : List String → Val
  | [o] => (env o).getD (.num 0)
  | l => .num (l.map (num env)).prod

/-- The settings of the components. -/
def settings (p : Prog) (env : Env) : List (Slot × Val) := (wiring p).map fun e => (e.1, slotVal env e.2)

end RFS.Config
