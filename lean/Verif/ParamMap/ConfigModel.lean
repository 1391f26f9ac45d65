import Verif.ParamMap.Model

/-!
Model of the part of the programs that collects their parameters: the command line, the configuration file that it names, and in some programs the command line again.

Simplifications. The table starts empty. `files` gives the content of the file of a given name, `none` for a file that cannot be opened. What is printed is left out.
-/
namespace Verif.ParamMap
open Verif

/-- The programs that read a configuration file: common/app/test_morton_functions.cpp:49-51, common/app/test_morton_order.cpp:42-48, common/app/test_tls_scalar_consensus.cpp:37-39,
geometry/app/test_correspondence_graph.cpp:34-39, geometry/app/test_hough_plane_detector.cpp:41-46. -/
inductive Program
  | mortonFunctions
  | mortonOrder
  | tlsScalarConsensus
  | correspondenceGraph
  | houghPlaneDetector
  deriving DecidableEq, Repr

/-- The program reads the command line again after the file: test_morton_order.cpp:48, test_correspondence_graph.cpp:39, test_hough_plane_detector.cpp:46. -/
def Program.again : Program → Bool
  | .mortonFunctions | .tlsScalarConsensus => false
  | .mortonOrder | .correspondenceGraph | .houghPlaneDetector => true

/-- The program does not open the file when its name is empty: test_morton_order.cpp:45. -/
def Program.skipsEmpty : Program → Bool
  | .mortonOrder => true
  | _ => false

/-- The name of the parameter with the name of the configuration file, test_tls_scalar_consensus.cpp:38. -/
def cfgName : Str := ['c', 'f', 'g']

/-- The collection of the parameters: test_morton_functions.cpp:49-51, test_morton_order.cpp:42-48, test_tls_scalar_consensus.cpp:37-39, test_correspondence_graph.cpp:34-39,
test_hough_plane_detector.cpp:41-46. For `std::string` the conversions of `getParam` are the identity. -/
def Program.configure (p : Program) (files : Str → Option Str) (argv : List Str) : Outcome Table := do
  let t ← readArgs strict [] argv
  let (t, filenameCfg, _) := getParam some id t cfgName [] []
  let t := if p.skipsEmpty && filenameCfg.isEmpty then t else (readFile t (files filenameCfg)).1
  if p.again then readArgs strict t argv else return t

end Verif.ParamMap
