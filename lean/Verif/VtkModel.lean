/-
Model of `/repo/src/lib/export/VTKExporter.inl`, `VTKExporter<T,2>::write` (a `Mesh<T,K>` exists for `K == 2` only, see `MeshModel.lean`).

The result is the text written to the file; opening, writing and closing the file are assumed to succeed.  `showT` is
`operator<<(std::ostream&, T)` with the default format.  A `std::map<std::string, V*>` is the list of its entries in key order.
-/
import Verif.MeshModel

namespace NS.Vtk
open NS NS.World
variable {T : Type} [Field T] [LinearOrder T]

abbrev Text := List Char

/-- a string literal (output operators in VTKExporter.inl:8-177) -/
abbrev str (s : String) : Text := s.toList

/-- `std::endl` (output operators in VTKExporter.inl:8-177) -/
def nl : Text := ['\n']

/-- the literal `" "` (output operators in VTKExporter.inl:8-177) -/
def sp : Text := [' ']

/-- `operator<<` for `size_t` and (non-negative) `int`: decimal (output operators in VTKExporter.inl:8-177) -/
def showNat (n : Nat) : Text :=
  if n < 10 then [Char.ofNat (48 + n)] else showNat (n / 10) ++ [Char.ofNat (48 + n % 10)]
termination_by n

/-- `outputOptions & f`, `VTKExporter.h:11-20` -/
def has (opts f : Nat) : Bool := opts &&& f != 0

/-- the coordinates, `VTKExporter.inl:30-35` -/
def pointsText (showT : T → Text) (w : World T) : R Text :=
  forList w.vertices [] fun p out => do
    let v ← getIdx w.V p
    let x ← vecAt v.pos 0
    let y ← vecAt v.pos 1
    return out ++ (showT x ++ sp ++ showT y ++ sp ++ showT 0 ++ nl)

/-- `connectivity`, `VTKExporter.inl:43-48` -/
def connText (w : World T) : R Text :=
  forList w.elements [] fun ep out => do
    let e ← getIdx w.E ep
    let out ← forList e.dofs out fun p out => do
      let v ← getIdx w.V p
      return out ++ (showNat v.gi ++ sp)
    return out ++ nl

/-- `elemOff`, `VTKExporter.inl:51-77`, `K == 2` -/
def elemOff (opts : Nat) : Nat := if has opts 0x80 then 6 else 3

/-- `elemType`, `VTKExporter.inl:52-77`, `K == 2` -/
def elemType (opts : Nat) : Nat := if has opts 0x80 then 22 else 5

/-- `offsets`, `VTKExporter.inl:81-83` -/
def offsetsText (n off : Nat) : R Text := do
  let out ← forRange 1 (n + 1) [] fun i out => return out ++ (showNat (i * off) ++ sp)
  return out ++ nl

/-- `types`, `VTKExporter.inl:87-89` -/
def typesText (n ty : Nat) : R Text := do
  let out ← forRange 0 n [] fun _ out => return out ++ (showNat ty ++ sp)
  return out ++ nl

/-- one entry of `pointData` or `cellData`, `VTKExporter.inl:96-102`, `123-129` -/
def dataText (showT : T → Text) (name : Text) (v : List T) : R Text := do
  let out ← forRange 0 v.length [] fun i out => do
    let x ← vecAt v i
    return out ++ (showT x ++ sp)
  return str "<DataArray Name=\"" ++ name ++ str "\" type=\"Float32\" format=\"ascii\">" ++ nl ++ out ++ nl ++ str "</DataArray>" ++ nl

/-- all entries of a map (VTKExporter.inl:96-102, 123-129) -/
def dataTexts (showT : T → Text) (m : List (Text × List T)) : R Text :=
  forList m [] fun d out => do
    let t ← dataText showT d.1 d.2
    return out ++ t

/-- the values of `BoundaryLabel` (`f = 1`, `MVF_StrongBoundary`) and `ImplicitLabel` (`f = 2`, `MVF_Implicit`),
`VTKExporter.inl:107-108`, `115-116` -/
def labels (f : Nat) (w : World T) : R Text :=
  forList w.vertices [] fun p out => do
    let v ← getIdx w.V p
    return out ++ (showNat (if has v.flags f then 1 else 0) ++ sp)

/-- `BoundaryLabel`, `VTKExporter.inl:104-110` -/
def boundaryText (opts : Nat) (w : World T) : R Text :=
  if has opts 0x8 then do
    let l ← labels 1 w
    return str "<DataArray Name=\"BoundaryLabel\" type=\"UInt8\" format=\"ascii\">" ++ nl ++ l ++ nl ++ str "</DataArray>" ++ nl
  else return []

/-- `ImplicitLabel`, `VTKExporter.inl:112-118` -/
def implicitText (opts : Nat) (w : World T) : R Text :=
  if has opts 0x10 then do
    let l ← labels 2 w
    return str "<DataArray Name=\"ImplicitLabel\" type=\"UInt8\" format=\"ascii\">" ++ nl ++ l ++ nl ++ str "</DataArray>" ++ nl
  else return []

/-- `ElementDeterminant`, `VTKExporter.inl:131-138` -/
def determinantText (showT : T → Text) (opts : Nat) (w : World T) : R Text :=
  if has opts 0x1 then do
    let l ← forList w.elements [] fun ep out => do
      let e ← getIdx w.E ep
      let d ← e.simplex.determinant
      return out ++ (showT d ++ sp)
    return str "<DataArray Name=\"ElementDeterminant\" type=\"Float32\" format=\"ascii\">" ++ nl ++ l ++ nl ++ str "</DataArray>" ++ nl
  else return []

/-- `ElementMatrix`, `VTKExporter.inl:140-152`; `K*K` is 4 -/
def matrixText (showT : T → Text) (opts : Nat) (w : World T) : R Text :=
  if has opts 0x2 then do
    let l ← forList w.elements [] fun ep out => do
      let e ← getIdx w.E ep
      let m ← e.simplex.matrix
      let es ← m.entries
      return out ++ (es.flatMap (fun t => showT t.2.2 ++ sp) ++ nl)
    return str "<DataArray Name=\"ElementMatrix\" type=\"Float32\" NumberOfComponents=\"" ++ showNat (2 * 2) ++ str "\" format=\"ascii\">" ++ nl ++ l ++
      str "</DataArray>" ++ nl
  else return []

/-- `ElementGradient`, `VTKExporter.inl:154-166`; `K*K` is 4, the gradient is a `FixedVector<T,2>` -/
def gradientText (showT : T → Text) (opts : Nat) (w : World T) : R Text :=
  if has opts 0x4 then do
    let l ← forList w.elements [] fun ep out => do
      let e ← getIdx w.E ep
      let g ← e.simplex.gradient 0
      return out ++ (g.flatMap (fun x => showT x ++ sp) ++ nl)
    return str "<DataArray Name=\"ElementGradient\" type=\"Float32\" NumberOfComponents=\"" ++ showNat (2 * 2) ++ str "\" format=\"ascii\">" ++ nl ++ l ++
      str "</DataArray>" ++ nl
  else return []

/-- `pointData.begin()->first`, `VTKExporter.inl:95`: undefined behaviour for an empty map -/
def firstName (m : List (Text × List T)) : R Text :=
  match m with
  | [] => .error .ub
  | d :: _ => .ok d.1

/-- `write(path, mesh, pointData, cellData, outputOptions)`, `VTKExporter.inl:8-177` -/
def write (showT : T → Text) (w : World T) (pointData cellData : List (Text × List T)) (opts : Nat) : R Text := do
  let points ← pointsText showT w
  let conn ← connText w
  let offs ← offsetsText w.elements.length (elemOff opts)
  let types ← typesText w.elements.length (elemType opts)
  let first ← firstName pointData
  let pd ← dataTexts showT pointData
  let bl ← boundaryText opts w
  let il ← implicitText opts w
  let cd ← dataTexts showT cellData
  let ed ← determinantText showT opts w
  let em ← matrixText showT opts w
  let eg ← gradientText showT opts w
  return str "<?xml version=\"1.0\"?>" ++ nl ++
    (str "<VTKFile type=\"UnstructuredGrid\" version=\"0.1\" byte_order=\"LittleEndian\">" ++ nl) ++
    (str "<UnstructuredGrid>" ++ nl) ++
    (str "<Piece NumberOfPoints=\"" ++ showNat w.vertices.length ++ str "\" NumberOfCells=\"" ++ showNat w.elements.length ++ str "\">" ++ nl) ++
    (str "<Points>" ++ nl) ++
    (str "<DataArray type=\"Float32\" NumberOfComponents=\"3\" format=\"ascii\">" ++ nl) ++
    points ++
    (str "</DataArray>" ++ nl) ++
    (str "</Points>" ++ nl) ++
    (str "<Cells>" ++ nl) ++
    (str "<DataArray type=\"Int32\" Name=\"connectivity\" format=\"ascii\">" ++ nl) ++
    conn ++
    (str "</DataArray>" ++ nl) ++
    (str "<DataArray type=\"Int32\" Name=\"offsets\" format=\"ascii\">" ++ nl) ++
    offs ++
    (str "</DataArray>" ++ nl) ++
    (str "<DataArray type=\"UInt8\" Name=\"types\" format=\"ascii\">" ++ nl) ++
    types ++
    (str "</DataArray>" ++ nl) ++
    (str "</Cells>" ++ nl) ++
    (str "<PointData Scalars=\"" ++ first ++ str "\">" ++ nl) ++
    pd ++ bl ++ il ++
    (str "</PointData>" ++ nl) ++
    (str "<CellData>" ++ nl) ++
    cd ++ ed ++ em ++ eg ++
    (str "</CellData>" ++ nl) ++
    (str "</Piece>" ++ nl) ++
    (str "</UnstructuredGrid>" ++ nl) ++
    (str "</VTKFile>" ++ nl) ++
    nl
end NS.Vtk
