import Verif.Model.Program
open TopoGeo
def spp (p : Point) : String := s!"{p.x},{p.y}"
def sr : Ring → String | .points l => " ".intercalate (l.map spp) | _ => "?"
def spanic : Panic → String
  | .overflow => "!overflow" | .index => "!index" | .assert => "!assert" | .explicit => "!explicit"
  | .division => "!division" | .nullDeref => "!nullDeref" | .fuel => "!fuel" | .capacity => "!capacity" | .unimplemented => "!unimplemented"
def io : IoError → Text := fun _ => "IO".toList
def enc := Encoding.ascii
def sfield (rec : DbfRecord) (f : DbfField) : String := String.ofList f.name ++ ":" ++
  match f.readString rec with
  | .error p => spanic p
  | .ok (.error e) => "E" ++ String.ofList (e.show io enc)
  | .ok (.ok t) => String.ofList t
def loop (m : Build) : Nat → ShapefileGeoIterator MemFile MemFile → List String
  | 0, _ => []
  | n+1, it => match it.next m with
    | .error p => [spanic p]
    | .ok (none, _) => ["done"]
    | .ok (some (.error e), it') => ("E:" ++ String.ofList (e.show io enc)) :: loop m n it'
    | .ok (some (.ok r), it') => ("|".intercalate (r.outerRings.map sr) ++ "/" ++ "|".intercalate (r.innerRings.map sr) ++ "/" ++
        ";".intercalate (r.data.dbfMeta.fields.map (sfield r.data))) :: loop m n it'
def hx (c : Char) : Nat := if c.isDigit then c.toNat - 48 else c.toNat - 87
def unhex : List Char → Bytes
  | a :: b :: t => UInt8.ofNat (hx a * 16 + hx b) :: unhex t
  | _ => []
def main (args : List String) : IO Unit := do
  let txt ← IO.FS.readFile args[0]!
  for l in txt.splitOn "\n" do
    if l ≠ "" then
      match l.splitOn " " with
      | [m, a, b] =>
        let m := if m = "0" then Build.debug else .release
        match ShapefileReader.new m (⟨unhex a.toList⟩ : MemFile) (⟨unhex b.toList⟩ : MemFile) enc with
        | .error p => IO.println (spanic p)
        | .ok (.error e) => IO.println ("E:" ++ String.ofList (e.show io enc))
        | .ok (.ok r) => IO.println ((("#".intercalate (loop m 8 (ShapefileGeoIterator.new r))).replace "\n" "\\n").replace "\r" "\\r")
      | _ => IO.println "?"
