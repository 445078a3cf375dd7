import Verif.Model.Simplify
import Verif.Model.Normalize
import Verif.Model.Clip
open TopoGeo
abbrev PM := StateM (List Nat)
def nx : PM Nat := fun s => match s with | [] => (0,[]) | a::t => (a,t)
def rep {α} (n : Nat) (p : PM α) : PM (List α) := (List.range n).mapM (fun _ => p)
def many {α} (p : PM α) : PM (List α) := do let n ← nx; rep n p
def pt : PM Point := do let x ← nx; let y ← nx; pure ⟨x.toUInt32, y.toUInt32⟩
def rg : PM Ring := do
  let k ← nx
  if k = 0 then return .points (← many pt) else return .edges (← many (many pt))
def regn : PM (Region Nat) := do let d ← nx; let o ← many rg; let i ← many rg; pure ⟨d,o,i⟩
def maskOf (k v : Nat) : ClipMask := match k with
  | 0 => .minX v.toUInt32 | 1 => .maxX v.toUInt32 | 2 => .minY v.toUInt32 | _ => .maxY v.toUInt32
def sp (p : Point) : String := s!"{p.x},{p.y}"
def spts (l : List Point) := " ".intercalate (l.map sp)
def sd : Direction → String | .forward => "F" | .backward => "B"
def sring (r : TopoRing) : String := "[" ++ " ".intercalate (r.directedEdges.map fun d => s!"{d.edge}{sd d.direction}") ++ "]@" ++ (match r.region with | none => "-" | some r => toString r)
def srp : Option RingPtr → String | none => "-" | some r => s!"{r.region}{if r.inner then "i" else "o"}{r.index}"
def st (t : Topology Nat) : String := ";".intercalate (
  (t.regions.map fun r => s!"R{r.data}:" ++ String.join (r.outerRings.map sring) ++ "/" ++ String.join (r.innerRings.map sring)) ++
  (t.edges.map fun e => "E" ++ spts e.points ++ "|" ++ srp e.ring0 ++ "|" ++ srp e.ring1))
def spanic : Panic → String
  | .overflow => "!overflow" | .index => "!index" | .assert => "!assert" | .explicit => "!explicit"
  | .division => "!division" | .nullDeref => "!nullDeref" | .fuel => "!fuel" | .capacity => "!capacity" | .unimplemented => "!unimpl"
inductive Op | n | c (m : ClipMask) | s (a : Nat)
def op : PM Op := do
  match (← nx) with
  | 0 => pure .n
  | 1 => do let k ← nx; let v ← nx; pure (.c (maskOf k v))
  | _ => do let a ← nx; pure (.s a)
def go (m : Build) (t : Topology Nat) : List Op → List String
  | [] => []
  | o :: rest =>
    let r := match o with | .n => normalize m t | .c k => clipTopology m t k | .s a => simplify m t a
    match r with | .ok t' => st t' :: go m t' rest | .error e => [spanic e]
def case : PM String := do
  let k ← nx
  let m := if (← nx) = 0 then Build.debug else Build.release
  match k with
  | 0 => do
    let rs ← many regn
    let ops ← many op
    match buildTopology m rs with
    | .error e => pure (spanic e)
    | .ok t => pure ("#".intercalate (st t :: go m t ops))
  | 1 => do
    let ps ← many pt; let a ← nx
    match simplifyEdge m ps a with | .error e => pure (spanic e) | .ok l => pure (spts l)
  | _ => do
    let ps ← many pt; let k ← nx; let v ← nx
    match clipEdge m (maskOf k v) ps with | .error e => pure (spanic e) | .ok l => pure (spts l)
def main (args : List String) : IO Unit := do
  let txt ← IO.FS.readFile args[0]!
  for l in txt.splitOn "\n" do
    if l ≠ "" then
      let ns := (l.splitOn " ").map String.toNat!
      IO.println (case.run ns).1
