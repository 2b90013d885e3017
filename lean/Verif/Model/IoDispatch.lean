import Verif.Model.Basic
/-!
# `load` and `save` by file extension (heat/core/io.py:31-35, 942-964, 1358-1381)

Paths are lists of characters (POSIX).
-/
namespace Heat

/-- `os.path.splitext(path)[-1]` (Python, posixpath): from the last dot of the file name on, if some character of the file name before it is not a dot; else empty. -/
def splitExt (p : List Char) : List Char :=
  let name := ((p.reverse.takeWhile (· ≠ '/')).reverse).dropWhile (· = '.')
  if '.' ∈ name then '.' :: (name.reverse.takeWhile (· ≠ '.')).reverse else []

/-- `.strip()`: without blanks at both ends (Python: all white space). -/
def stripBlank (ws : Char → Bool) (l : List Char) : List Char := ((l.dropWhile ws).reverse.dropWhile ws).reverse

/-- `os.path.splitext(path)[-1].strip().lower()` (io.py:944, 1360). -/
def ioExtension (ws : Char → Bool) (p : List Char) : List Char := (stripBlank ws (splitExt p)).map Char.toLower

/-- The file formats. -/
inductive IoFormat where
  | csv | hdf5 | netcdf | zarr
deriving DecidableEq

/-- Outcome of the choice: a format, `RuntimeError` for a missing package, `ValueError` for an unknown extension. -/
inductive IoChoice where
  | use (f : IoFormat)
  | missing
  | unsupported
deriving DecidableEq

/-- `__CSV_EXTENSION` (io.py:31). -/
def csvExts : List String := [".csv"]
/-- `__HDF5_EXTENSIONS` (io.py:32). -/
def hdf5Exts : List String := [".h5", ".hdf5"]
/-- `__NETCDF_EXTENSIONS` (io.py:33). -/
def netcdfExts : List String := [".nc", ".nc4", "netcdf"]
/-- `__ZARR_EXTENSIONS` (io.py:35). -/
def zarrExts : List String := [".zarr"]

/-- `extension in ...`. -/
def isExt (e : List Char) (exts : List String) : Bool := exts.any fun s => decide (s.toList = e)

/-- `load(path)` (io.py:942-964); `sup f`: the package for the format is installed. -/
def loadChoice (ws : Char → Bool) (sup : IoFormat → Bool) (p : List Char) : IoChoice :=
  let e := ioExtension ws p
  if isExt e csvExts then .use .csv
  else if isExt e hdf5Exts then (if sup .hdf5 then .use .hdf5 else .missing)
  else if isExt e netcdfExts then (if sup .netcdf then .use .netcdf else .missing)
  else if isExt e zarrExts then (if sup .zarr then .use .zarr else .missing)
  else .unsupported

/-- `save(data, path)` (io.py:1358-1381). -/
def saveChoice (ws : Char → Bool) (sup : IoFormat → Bool) (p : List Char) : IoChoice :=
  let e := ioExtension ws p
  if isExt e hdf5Exts then (if sup .hdf5 then .use .hdf5 else .missing)
  else if isExt e netcdfExts then (if sup .netcdf then .use .netcdf else .missing)
  else if isExt e csvExts then .use .csv
  else if isExt e zarrExts then (if sup .zarr then .use .zarr else .missing)
  else .unsupported

end Heat
