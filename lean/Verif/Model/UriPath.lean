import Verif.Model.Uri

/-!
# The other path parsers of the `uri` crate

`path`, `path_absolute` and `path_noscheme` (uri/src/parsers/path_parsers.rs); `hier_part` uses only `path_abempty` and
`path_rootless` (`Verif.Model.Uri`).
-/

namespace OniComb.Uri
open OniComb

/-- `seqment_nz_nc`, path_parsers.rs:101-108. -/
def segmentNzNc : Parser UInt8 Bytes :=
  name (collect (many1 (or (or (or unreserved pctEncoded) subDelims) (collect (elm (byte '@')))))) "segment-nz-nc"

/-- The closure of `path_absolute` that puts the slash in front of the other parts, path_parsers.rs:36-43. -/
def absoluteParts (x : Bytes × Option (List Bytes)) : List Bytes :=
  match x.2 with
  | none => [x.1]
  | some b => x.1 :: b

/-- `path_absolute`, path_parsers.rs:27-52. -/
def pathAbsolute : Parser UInt8 Path :=
  let p := opt (map (andThen segmentNz (many0 (collect (andThen (elm (byte '/')) segment)))) fun x => x.1 :: x.2)
  name (map (mapUnwrap (map (andThen (collect (elm (byte '/'))) p) absoluteParts) fun e => e.mapM fromUtf8) .absolute) "path-absolute"

/-- `path_noscheme`, path_parsers.rs:73-88; the source really has `Path::of_rootless_from_strings`. -/
def pathNoscheme : Parser UInt8 Path :=
  name (map (mapUnwrap (map (andThen segmentNzNc (many0 (collect (andThen (elm (byte '/')) segment))))
    fun x => x.1 :: x.2) fun e => e.mapM fromUtf8) .rootless) "path-noscheme"

/-- `path`, path_parsers.rs:5-14. -/
def path : Parser UInt8 (Option Path) :=
  name (opt (or (or (or (attempt pathRootless) (attempt (pathAbempty 1))) (attempt pathAbsolute)) pathNoscheme)) "path"

end OniComb.Uri
