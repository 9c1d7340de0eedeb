import Verif.Model.Main
import Verif.Model.Concrete
/-!
The model run on the repository's own test files (/repo/pdf/test, expectations from
/repo/pdf/unit_test.go). These are checks of the model against the code's expected behaviour, by
evaluation; they are tests, not proofs. The bytes are copied from the test files. zlib and LZW
data is read by the models of the readers.
-/

namespace Pdf.RepoTests

/-- external functions for these files -/
def ext : Ext := Concrete.ext

/-- load a file; number of cross reference entries, object `n` and the messages logged for it -/
def run (file : Bytes) (n : Int) : Option (Nat × IndObj × List Err) :=
  let cfg : Cfg := ⟨file, ext, some false⟩
  match load cfg default 50 50 [] LS.init with
  | .ok (none, ls) =>
    match getObject (ls.env cfg) 50 n ls.ps with
    | .ok (o, ps) => some (ls.xref.length, o, ps.log.drop ls.ps.log.length)
    | _ => none
  | _ => none

/-- `object.Value.String()` -/
def value (file : Bytes) (n : Int) : Option Bytes := (run file n).map fun r => r.2.1.value.toBytes
/-- `object.Stream` -/
def stream (file : Bytes) (n : Int) : Option Bytes := (run file n).bind fun r => r.2.1.stream
/-- `len(parser.Xref)` -/
def xrefLen (file : Bytes) : Option Nat := (run file 1).map fun r => r.1
/-- what `GetObject(1).Value.(*Reference).Resolve()` gives -/
def resolved (file : Bytes) : Option Bytes :=
  let cfg : Cfg := ⟨file, ext, some false⟩
  match load cfg default 50 50 [] LS.init with
  | .ok (none, ls) =>
    match (getObject (ls.env cfg) 50 1 >>= fun o => match o.value with
      | .ref n _ => resolver (ls.env cfg) 50 n
      | _ => fun _ => .panic "not a reference") ls.ps with
    | .ok (o, _) => some o.value.toBytes
    | _ => none
  | _ => none

/-- /repo/pdf/test/comments.pdf -/
def comments : Bytes := [37, 32, 108, 101, 116, 115, 32, 115, 101, 101, 32, 105, 102, 32, 115, 111, 109, 101, 32, 99, 111, 109, 109, 101, 110, 116, 115, 32, 109, 101, 115, 115, 32, 116, 104, 105, 115, 32, 117, 112, 10, 49, 32, 37, 99, 111, 109, 109, 101, 110, 116, 10, 37, 99, 111, 109, 109, 101, 110, 116, 10, 48, 37, 37, 99, 111, 109, 109, 101, 110, 116, 10, 37, 99, 111, 109, 109, 101, 110, 116, 10, 32, 111, 98, 106, 32, 37, 99, 111, 109, 109, 101, 110, 116, 10, 40, 37, 116, 104, 105, 115, 32, 105, 115, 32, 110, 111, 116, 32, 97, 32, 99, 111, 109, 109, 101, 110, 116, 41, 32, 37, 99, 111, 109, 109, 101, 110, 116, 10, 37, 99, 111, 109, 109, 101, 110, 116, 10, 101, 110, 100, 111, 98, 106, 10]
/-- /repo/pdf/test/empty_array.pdf -/
def empty_array : Bytes := [49, 32, 48, 32, 111, 98, 106, 10, 91, 93, 10, 101, 110, 100, 111, 98, 106, 10]
/-- /repo/pdf/test/empty_dictionary.pdf -/
def empty_dictionary : Bytes := [49, 32, 48, 32, 111, 98, 106, 10, 60, 60, 62, 62, 10, 101, 110, 100, 111, 98, 106, 10]
/-- /repo/pdf/test/names.pdf -/
def names : Bytes := [49, 32, 48, 32, 111, 98, 106, 10, 47, 72, 35, 54, 53, 108, 108, 111, 35, 50, 48, 35, 50, 102, 87, 35, 54, 70, 114, 108, 100, 33, 35, 113, 122, 10, 101, 110, 100, 111, 98, 106, 10]
/-- /repo/pdf/test/unclosed_array.pdf -/
def unclosed_array : Bytes := [49, 32, 48, 32, 111, 98, 106, 10, 91, 10]
/-- /repo/pdf/test/unclosed_comment.pdf -/
def unclosed_comment : Bytes := [49, 32, 48, 32, 111, 98, 106, 10, 37, 10]
/-- /repo/pdf/test/unclosed_hex_string.pdf -/
def unclosed_hex_string : Bytes := [49, 32, 48, 32, 111, 98, 106, 10, 60, 10]
/-- /repo/pdf/test/unclosed_name.pdf -/
def unclosed_name : Bytes := [49, 32, 48, 32, 111, 98, 106, 10, 47, 10]
/-- /repo/pdf/test/unclosed_name_escape_1.pdf -/
def unclosed_name_escape_1 : Bytes := [49, 32, 48, 32, 111, 98, 106, 10, 47, 35, 10]
/-- /repo/pdf/test/unclosed_name_escape_2.pdf -/
def unclosed_name_escape_2 : Bytes := [49, 32, 48, 32, 111, 98, 106, 10, 47, 35, 51, 10]
/-- /repo/pdf/test/unclosed_string.pdf -/
def unclosed_string : Bytes := [49, 32, 48, 32, 111, 98, 106, 10, 40]
/-- /repo/pdf/test/unclosed_string_escape.pdf -/
def unclosed_string_escape : Bytes := [49, 32, 48, 32, 111, 98, 106, 10, 40, 92]
/-- /repo/pdf/test/unclosed_string_octal_1.pdf -/
def unclosed_string_octal_1 : Bytes := [49, 32, 48, 32, 111, 98, 106, 10, 40, 92, 49]
/-- /repo/pdf/test/unclosed_string_octal_2.pdf -/
def unclosed_string_octal_2 : Bytes := [49, 32, 48, 32, 111, 98, 106, 10, 40, 92, 49, 50]
/-- /repo/pdf/test/strings.pdf -/
def strings : Bytes := [49, 32, 48, 32, 111, 98, 106, 10, 91, 10, 40, 110, 101, 119, 108, 105, 110, 101, 10, 110, 101, 119, 108, 105, 110, 101, 32, 99, 104, 97, 114, 92, 110, 110, 111, 32, 110, 101, 119, 108, 105, 110, 101, 92, 10, 40, 98, 97, 108, 97, 110, 99, 101, 32, 112, 97, 114, 101, 110, 115, 32, 97, 108, 108, 111, 119, 101, 100, 41, 32, 101, 115, 99, 97, 112, 101, 100, 32, 112, 97, 114, 101, 110, 32, 92, 41, 32, 92, 92, 110, 32, 92, 49, 49, 48, 101, 108, 108, 111, 92, 55, 55, 92, 55, 55, 55, 41, 10, 60, 32, 52, 32, 56, 9, 54, 53, 54, 99, 54, 67, 54, 102, 103, 55, 105, 103, 110, 111, 114, 62, 10, 60, 62, 10, 40, 41, 10, 93, 10, 101, 110, 100, 111, 98, 106, 10]
/-- /repo/pdf/test/filter_ascii_85_decode.pdf -/
def filter_ascii_85_decode : Bytes := [49, 32, 48, 32, 111, 98, 106, 10, 60, 60, 47, 70, 105, 108, 116, 101, 114, 47, 65, 83, 67, 73, 73, 56, 53, 68, 101, 99, 111, 100, 101, 47, 76, 101, 110, 103, 116, 104, 32, 49, 57, 62, 62, 115, 116, 114, 101, 97, 109, 10, 122, 44, 112, 32, 62, 96, 114, 10, 68, 75, 9, 74, 106, 39, 69, 43, 76, 126, 62, 10, 101, 110, 100, 115, 116, 114, 101, 97, 109, 10, 101, 110, 100, 111, 98, 106, 10]
/-- /repo/pdf/test/filter_ascii_hex_decode.pdf -/
def filter_ascii_hex_decode : Bytes := [49, 32, 48, 32, 111, 98, 106, 10, 60, 60, 47, 70, 105, 108, 116, 101, 114, 47, 65, 83, 67, 73, 73, 72, 101, 120, 68, 101, 99, 111, 100, 101, 47, 76, 101, 110, 103, 116, 104, 32, 50, 48, 62, 62, 10, 115, 116, 114, 101, 97, 109, 10, 32, 52, 32, 56, 54, 53, 54, 99, 54, 67, 54, 102, 55, 62, 55, 49, 113, 119, 101, 32, 10, 101, 110, 100, 115, 116, 114, 101, 97, 109, 10, 101, 110, 100, 111, 98, 106, 10]
/-- /repo/pdf/test/filter_flate_decode.pdf -/
def filter_flate_decode : Bytes := [49, 32, 48, 32, 111, 98, 106, 10, 60, 60, 47, 70, 105, 108, 116, 101, 114, 47, 70, 108, 97, 116, 101, 68, 101, 99, 111, 100, 101, 47, 68, 101, 99, 111, 100, 101, 80, 97, 114, 109, 115, 60, 60, 47, 80, 114, 101, 100, 105, 99, 116, 111, 114, 32, 49, 53, 47, 67, 111, 108, 117, 109, 110, 115, 32, 49, 50, 62, 62, 47, 76, 101, 110, 103, 116, 104, 32, 53, 57, 62, 62, 10, 115, 116, 114, 101, 97, 109, 10, 120, 156, 98, 200, 72, 205, 201, 201, 87, 40, 207, 47, 202, 73, 225, 98, 204, 248, 203, 206, 192, 188, 49, 252, 7, 243, 175, 31, 203, 152, 24, 144, 0, 179, 201, 127, 22, 6, 166, 155, 58, 127, 152, 254, 254, 185, 204, 130, 44, 3, 8, 0, 0, 255, 255, 127, 31, 16, 131, 10, 101, 110, 100, 115, 116, 114, 101, 97, 109, 10, 101, 110, 100, 111, 98, 106, 10]
/-- /repo/pdf/test/filter_lzw_decode.pdf -/
def filter_lzw_decode : Bytes := [49, 32, 48, 32, 111, 98, 106, 10, 60, 60, 47, 70, 105, 108, 116, 101, 114, 47, 76, 90, 87, 68, 101, 99, 111, 100, 101, 47, 68, 101, 99, 111, 100, 101, 80, 97, 114, 109, 115, 60, 60, 47, 69, 97, 114, 108, 121, 67, 104, 97, 110, 103, 101, 32, 48, 47, 80, 114, 101, 100, 105, 99, 116, 111, 114, 32, 50, 47, 67, 111, 108, 117, 109, 110, 115, 32, 52, 47, 67, 111, 108, 111, 114, 115, 32, 51, 62, 62, 47, 76, 101, 110, 103, 116, 104, 32, 49, 54, 62, 62, 10, 115, 116, 114, 101, 97, 109, 10, 52, 25, 77, 128, 64, 82, 208, 22, 0, 41, 61, 94, 170, 248, 8, 10, 101, 110, 100, 115, 116, 114, 101, 97, 109, 10, 101, 110, 100, 111, 98, 106, 10]
/-- /repo/pdf/test/filter_lzw_tiff_decode.pdf -/
def filter_lzw_tiff_decode : Bytes := [49, 32, 48, 32, 111, 98, 106, 10, 60, 60, 47, 70, 105, 108, 116, 101, 114, 47, 76, 90, 87, 68, 101, 99, 111, 100, 101, 47, 68, 101, 99, 111, 100, 101, 80, 97, 114, 109, 115, 60, 60, 47, 69, 97, 114, 108, 121, 67, 104, 97, 110, 103, 101, 32, 48, 47, 80, 114, 101, 100, 105, 99, 116, 111, 114, 32, 50, 47, 67, 111, 108, 117, 109, 110, 115, 32, 52, 47, 67, 111, 108, 111, 114, 115, 32, 51, 62, 62, 47, 76, 101, 110, 103, 116, 104, 32, 49, 54, 62, 62, 10, 115, 116, 114, 101, 97, 109, 10, 128, 26, 12, 166, 192, 32, 41, 104, 11, 0, 20, 158, 175, 85, 124, 4, 10, 101, 110, 100, 115, 116, 114, 101, 97, 109, 10, 101, 110, 100, 111, 98, 106, 10]
/-- /repo/pdf/test/filter_multiple.pdf -/
def filter_multiple : Bytes := [49, 32, 48, 32, 111, 98, 106, 10, 60, 60, 47, 70, 105, 108, 116, 101, 114, 91, 47, 76, 90, 87, 68, 101, 99, 111, 100, 101, 47, 70, 108, 97, 116, 101, 68, 101, 99, 111, 100, 101, 93, 47, 68, 101, 99, 111, 100, 101, 80, 97, 114, 109, 115, 91, 60, 60, 47, 69, 97, 114, 108, 121, 67, 104, 97, 110, 103, 101, 32, 48, 62, 62, 60, 60, 47, 80, 114, 101, 100, 105, 99, 116, 111, 114, 32, 49, 53, 47, 67, 111, 108, 117, 109, 110, 115, 32, 49, 50, 62, 62, 93, 47, 76, 101, 110, 103, 116, 104, 32, 53, 57, 62, 62, 10, 115, 116, 114, 101, 97, 109, 10, 60, 39, 12, 76, 130, 67, 53, 146, 201, 43, 138, 25, 226, 246, 81, 37, 194, 98, 102, 62, 25, 108, 230, 2, 240, 98, 252, 3, 188, 213, 225, 246, 90, 96, 48, 144, 0, 44, 217, 39, 240, 176, 25, 76, 155, 29, 31, 211, 15, 231, 242, 229, 152, 130, 22, 0, 193, 0, 0, 3, 253, 254, 127, 15, 132, 16, 112, 16, 10, 101, 110, 100, 115, 116, 114, 101, 97, 109, 10, 101, 110, 100, 111, 98, 106, 10]
/-- /repo/pdf/test/filter_run_length_decode.pdf -/
def filter_run_length_decode : Bytes := [49, 32, 48, 32, 111, 98, 106, 10, 60, 60, 47, 70, 105, 108, 116, 101, 114, 47, 82, 117, 110, 76, 101, 110, 103, 116, 104, 68, 101, 99, 111, 100, 101, 47, 76, 101, 110, 103, 116, 104, 32, 50, 48, 62, 62, 115, 116, 114, 101, 97, 109, 10, 0, 72, 0, 101, 255, 108, 0, 111, 128, 128, 0, 0, 0, 0, 0, 0, 0, 0, 0, 0, 10, 101, 110, 100, 115, 116, 114, 101, 97, 109, 10, 101, 110, 100, 111, 98, 106, 10]
/-- /repo/pdf/test/carriage_return.pdf -/
def carriage_return : Bytes := [49, 13, 48, 37, 99, 111, 109, 109, 101, 110, 116, 13, 111, 98, 106, 10, 60, 60, 47, 76, 101, 110, 103, 116, 104, 32, 53, 62, 62, 10, 115, 116, 114, 101, 97, 109, 13, 72, 101, 108, 108, 111, 10, 101, 110, 100, 115, 116, 114, 101, 97, 109, 10, 101, 110, 100, 111, 98, 106, 10]
/-- /repo/pdf/test/reference.pdf -/
def reference : Bytes := [49, 32, 48, 32, 111, 98, 106, 10, 50, 32, 48, 32, 82, 10, 101, 110, 100, 111, 98, 106, 10, 10, 50, 32, 48, 32, 111, 98, 106, 10, 40, 72, 101, 108, 108, 111, 32, 87, 111, 114, 108, 100, 33, 41, 10, 101, 110, 100, 111, 98, 106, 10]
/-- /repo/pdf/test/reference_loop.pdf -/
def reference_loop : Bytes := [49, 32, 48, 32, 111, 98, 106, 10, 49, 32, 48, 32, 82, 10, 101, 110, 100, 111, 98, 106, 10]
/-- /repo/pdf/test/reference_null.pdf -/
def reference_null : Bytes := [49, 32, 48, 32, 111, 98, 106, 10, 50, 32, 48, 32, 82, 10, 101, 110, 100, 111, 98, 106, 10]
/-- /repo/pdf/test/xref_loop.pdf -/
def xref_loop : Bytes := [37, 80, 68, 70, 45, 49, 46, 55, 10, 10, 120, 114, 101, 102, 10, 48, 32, 57, 10, 48, 48, 48, 48, 48, 48, 48, 48, 48, 48, 32, 48, 48, 48, 48, 48, 32, 102, 10, 48, 48, 48, 48, 48, 48, 48, 48, 48, 48, 32, 48, 48, 48, 48, 48, 32, 102, 10, 48, 48, 48, 48, 48, 48, 48, 48, 48, 48, 32, 48, 48, 48, 48, 48, 32, 102, 10, 48, 48, 48, 48, 48, 48, 48, 48, 48, 48, 32, 48, 48, 48, 48, 48, 32, 102, 10, 48, 48, 48, 48, 48, 48, 48, 48, 48, 48, 32, 48, 48, 48, 48, 48, 32, 102, 10, 48, 48, 48, 48, 48, 48, 48, 48, 48, 48, 32, 48, 48, 48, 48, 48, 32, 102, 10, 48, 48, 48, 48, 48, 48, 48, 48, 48, 48, 32, 48, 48, 48, 48, 48, 32, 102, 10, 48, 48, 48, 48, 48, 48, 48, 48, 48, 48, 32, 48, 48, 48, 48, 48, 32, 102, 10, 48, 48, 48, 48, 48, 48, 48, 48, 48, 48, 32, 48, 48, 48, 48, 48, 32, 102, 10, 116, 114, 97, 105, 108, 101, 114, 10, 60, 60, 47, 83, 105, 122, 101, 32, 49, 48, 47, 82, 111, 111, 116, 32, 50, 32, 48, 32, 82, 47, 80, 114, 101, 118, 32, 50, 51, 50, 62, 62, 10, 10, 120, 114, 101, 102, 10, 57, 32, 49, 10, 48, 48, 48, 48, 48, 48, 48, 48, 48, 48, 32, 48, 48, 48, 48, 48, 32, 102, 10, 116, 114, 97, 105, 108, 101, 114, 10, 60, 60, 47, 83, 105, 122, 101, 32, 49, 47, 80, 114, 101, 118, 32, 49, 48, 62, 62, 10, 10, 115, 116, 97, 114, 116, 120, 114, 101, 102, 10, 49, 48, 10, 37, 37, 69, 79, 70, 10]
/-- /repo/pdf/test/xref_repair.pdf -/
def xref_repair : Bytes := [37, 80, 68, 70, 45, 49, 46, 55, 10, 10, 49, 32, 48, 32, 111, 98, 106, 10, 60, 60, 47, 83, 105, 122, 101, 32, 49, 48, 47, 82, 111, 111, 116, 32, 50, 32, 48, 32, 82, 47, 73, 110, 100, 101, 120, 91, 48, 32, 49, 48, 93, 47, 87, 91, 49, 32, 50, 32, 49, 93, 47, 76, 101, 110, 103, 116, 104, 32, 52, 48, 62, 62, 115, 116, 114, 101, 97, 109, 10, 0, 0, 0, 0, 1, 0, 10, 0, 1, 0, 138, 0, 1, 0, 199, 0, 1, 0, 242, 0, 1, 1, 38, 0, 1, 1, 167, 0, 1, 1, 194, 0, 1, 2, 36, 0, 1, 2, 135, 0, 10, 101, 110, 100, 115, 116, 114, 101, 97, 109, 10, 101, 110, 100, 111, 98, 106, 10, 10, 50, 32, 48, 32, 111, 98, 106, 10, 60, 60, 47, 84, 121, 112, 101, 47, 67, 97, 116, 97, 108, 111, 103, 47, 79, 117, 116, 108, 105, 110, 101, 115, 32, 51, 32, 48, 32, 82, 47, 80, 97, 103, 101, 115, 32, 52, 32, 48, 32, 82, 62, 62, 10, 101, 110, 100, 111, 98, 106, 10, 10, 51, 32, 48, 32, 111, 98, 106, 10, 60, 60, 47, 84, 121, 112, 101, 47, 79, 117, 116, 108, 105, 110, 101, 115, 47, 67, 111, 117, 110, 116, 32, 48, 62, 62, 10, 101, 110, 100, 111, 98, 106, 10, 10, 52, 32, 48, 32, 111, 98, 106, 10, 60, 60, 47, 84, 121, 112, 101, 47, 80, 97, 103, 101, 115, 47, 75, 105, 100, 115, 91, 53, 32, 48, 32, 82, 93, 47, 67, 111, 117, 110, 116, 32, 49, 62, 62, 10, 101, 110, 100, 111, 98, 106, 10, 10, 53, 32, 48, 32, 111, 98, 106, 10, 60, 60, 47, 84, 121, 112, 101, 47, 80, 97, 103, 101, 47, 80, 97, 114, 101, 110, 116, 32, 52, 32, 48, 32, 82, 47, 77, 101, 100, 105, 97, 66, 111, 120, 91, 48, 32, 48, 32, 54, 49, 50, 32, 55, 57, 50, 93, 47, 82, 101, 115, 111, 117, 114, 99, 101, 115, 32, 60, 60, 47, 80, 114, 111, 99, 83, 101, 116, 32, 54, 32, 48, 32, 82, 47, 70, 111, 110, 116, 60, 60, 47, 70, 49, 32, 55, 32, 48, 32, 82, 62, 62, 62, 62, 47, 67, 111, 110, 116, 101, 110, 116, 115, 32, 56, 32, 48, 32, 82, 62, 62, 10, 101, 110, 100, 111, 98, 106, 10, 10, 54, 32, 48, 32, 111, 98, 106, 10, 91, 47, 80, 68, 70, 47, 84, 101, 120, 116, 93, 10, 101, 110, 100, 111, 98, 106, 10, 10, 55, 32, 48, 32, 111, 98, 106, 10, 60, 60, 47, 84, 121, 112, 101, 47, 70, 111, 110, 116, 47, 83, 117, 98, 84, 121, 112, 101, 47, 84, 121, 112, 101, 49, 47, 78, 97, 109, 101, 47, 70, 49, 47, 66, 97, 115, 101, 70, 111, 110, 116, 47, 72, 101, 108, 118, 101, 116, 105, 99, 97, 47, 69, 110, 99, 111, 100, 105, 110, 103, 47, 77, 97, 99, 82, 111, 109, 97, 110, 69, 110, 99, 111, 100, 105, 110, 103, 62, 62, 10, 101, 110, 100, 111, 98, 106, 10, 10, 56, 32, 48, 32, 111, 98, 106, 10, 60, 60, 47, 76, 101, 110, 103, 116, 104, 32, 53, 48, 62, 62, 10, 115, 116, 114, 101, 97, 109, 10, 66, 84, 10, 9, 47, 70, 49, 32, 32, 50, 52, 32, 32, 84, 102, 10, 9, 49, 48, 48, 32, 32, 49, 48, 48, 32, 32, 84, 100, 10, 9, 40, 72, 101, 108, 108, 111, 32, 87, 111, 114, 108, 100, 41, 32, 84, 106, 10, 69, 84, 10, 101, 110, 100, 115, 116, 114, 101, 97, 109, 10, 101, 110, 100, 111, 98, 106, 10, 10, 57, 32, 48, 32, 111, 98, 106, 10, 40, 72, 101, 108, 108, 111, 32, 119, 111, 114, 108, 100, 41, 10, 101, 110, 100, 111, 98, 106, 10]
/-- /repo/pdf/test/xref_stream_chain.pdf -/
def xref_stream_chain : Bytes := [37, 80, 68, 70, 45, 49, 46, 55, 10, 10, 49, 32, 48, 32, 111, 98, 106, 10, 60, 60, 47, 83, 105, 122, 101, 32, 49, 48, 47, 82, 111, 111, 116, 32, 50, 32, 48, 32, 82, 47, 80, 114, 101, 118, 32, 54, 52, 55, 32, 32, 32, 47, 87, 91, 49, 32, 50, 32, 49, 93, 47, 76, 101, 110, 103, 116, 104, 32, 52, 48, 62, 62, 115, 116, 114, 101, 97, 109, 10, 0, 0, 0, 0, 1, 0, 10, 0, 1, 0, 138, 0, 1, 0, 199, 0, 1, 0, 242, 0, 1, 1, 38, 0, 1, 1, 166, 0, 1, 1, 194, 0, 1, 2, 36, 0, 1, 2, 135, 0, 10, 101, 110, 100, 115, 116, 114, 101, 97, 109, 10, 101, 110, 100, 111, 98, 106, 10, 10, 50, 32, 48, 32, 111, 98, 106, 10, 60, 60, 47, 84, 121, 112, 101, 47, 67, 97, 116, 97, 108, 111, 103, 47, 79, 117, 116, 108, 105, 110, 101, 115, 32, 51, 32, 48, 32, 82, 47, 80, 97, 103, 101, 115, 32, 52, 32, 48, 32, 82, 62, 62, 10, 101, 110, 100, 111, 98, 106, 10, 10, 51, 32, 48, 32, 111, 98, 106, 10, 60, 60, 47, 84, 121, 112, 101, 47, 79, 117, 116, 108, 105, 110, 101, 115, 47, 67, 111, 117, 110, 116, 32, 48, 62, 62, 10, 101, 110, 100, 111, 98, 106, 10, 10, 52, 32, 48, 32, 111, 98, 106, 10, 60, 60, 47, 84, 121, 112, 101, 47, 80, 97, 103, 101, 115, 47, 75, 105, 100, 115, 91, 53, 32, 48, 32, 82, 93, 47, 67, 111, 117, 110, 116, 32, 49, 62, 62, 10, 101, 110, 100, 111, 98, 106, 10, 10, 53, 32, 48, 32, 111, 98, 106, 10, 60, 60, 47, 84, 121, 112, 101, 47, 80, 97, 103, 101, 47, 80, 97, 114, 101, 110, 116, 32, 52, 32, 48, 32, 82, 47, 77, 101, 100, 105, 97, 66, 111, 120, 91, 48, 32, 48, 32, 54, 49, 50, 32, 55, 57, 50, 93, 47, 82, 101, 115, 111, 117, 114, 99, 101, 115, 32, 60, 60, 47, 80, 114, 111, 99, 83, 101, 116, 32, 54, 32, 48, 32, 82, 47, 70, 111, 110, 116, 60, 60, 47, 70, 49, 32, 55, 32, 48, 32, 82, 62, 62, 62, 62, 47, 67, 111, 110, 116, 101, 110, 116, 115, 32, 56, 32, 48, 32, 82, 62, 62, 10, 101, 110, 100, 111, 98, 106, 10, 10, 54, 32, 48, 32, 111, 98, 106, 10, 91, 47, 80, 68, 70, 47, 84, 101, 120, 116, 93, 10, 101, 110, 100, 111, 98, 106, 10, 10, 55, 32, 48, 32, 111, 98, 106, 10, 60, 60, 47, 84, 121, 112, 101, 47, 70, 111, 110, 116, 47, 83, 117, 98, 84, 121, 112, 101, 47, 84, 121, 112, 101, 49, 47, 78, 97, 109, 101, 47, 70, 49, 47, 66, 97, 115, 101, 70, 111, 110, 116, 47, 72, 101, 108, 118, 101, 116, 105, 99, 97, 47, 69, 110, 99, 111, 100, 105, 110, 103, 47, 77, 97, 99, 82, 111, 109, 97, 110, 69, 110, 99, 111, 100, 105, 110, 103, 62, 62, 10, 101, 110, 100, 111, 98, 106, 10, 10, 56, 32, 48, 32, 111, 98, 106, 10, 60, 60, 47, 76, 101, 110, 103, 116, 104, 32, 53, 48, 62, 62, 10, 115, 116, 114, 101, 97, 109, 10, 66, 84, 10, 9, 47, 70, 49, 32, 32, 50, 52, 32, 32, 84, 102, 10, 9, 49, 48, 48, 32, 32, 49, 48, 48, 32, 32, 84, 100, 10, 9, 40, 72, 101, 108, 108, 111, 32, 87, 111, 114, 108, 100, 41, 32, 84, 106, 10, 69, 84, 10, 101, 110, 100, 115, 116, 114, 101, 97, 109, 10, 101, 110, 100, 111, 98, 106, 10, 10, 57, 32, 48, 32, 111, 98, 106, 10, 60, 60, 47, 83, 105, 122, 101, 32, 49, 47, 73, 110, 100, 101, 120, 91, 49, 48, 32, 49, 93, 47, 87, 91, 49, 32, 50, 32, 49, 93, 47, 76, 101, 110, 103, 116, 104, 32, 52, 62, 62, 10, 115, 116, 114, 101, 97, 109, 10, 1, 2, 215, 0, 10, 101, 110, 100, 115, 116, 114, 101, 97, 109, 10, 101, 110, 100, 111, 98, 106, 10, 10, 49, 48, 32, 48, 32, 111, 98, 106, 10, 40, 72, 101, 108, 108, 111, 32, 87, 111, 114, 108, 100, 33, 41, 10, 101, 110, 100, 111, 98, 106, 10, 10, 115, 116, 97, 114, 116, 120, 114, 101, 102, 10, 49, 48, 10, 37, 37, 69, 79, 70, 10]
/-- /repo/pdf/test/xref_stream_index_default.pdf -/
def xref_stream_index_default : Bytes := [37, 80, 68, 70, 45, 49, 46, 55, 10, 10, 49, 32, 48, 32, 111, 98, 106, 10, 60, 60, 47, 83, 105, 122, 101, 32, 49, 48, 47, 82, 111, 111, 116, 32, 50, 32, 48, 32, 82, 32, 32, 32, 32, 32, 32, 32, 32, 32, 32, 32, 32, 47, 87, 91, 49, 32, 50, 32, 49, 93, 47, 76, 101, 110, 103, 116, 104, 32, 52, 48, 62, 62, 115, 116, 114, 101, 97, 109, 10, 0, 0, 0, 0, 1, 0, 10, 0, 1, 0, 138, 0, 1, 0, 199, 0, 1, 0, 242, 0, 1, 1, 38, 0, 1, 1, 166, 0, 1, 1, 194, 0, 1, 2, 36, 0, 1, 2, 135, 0, 10, 101, 110, 100, 115, 116, 114, 101, 97, 109, 10, 101, 110, 100, 111, 98, 106, 10, 10, 50, 32, 48, 32, 111, 98, 106, 10, 60, 60, 47, 84, 121, 112, 101, 47, 67, 97, 116, 97, 108, 111, 103, 47, 79, 117, 116, 108, 105, 110, 101, 115, 32, 51, 32, 48, 32, 82, 47, 80, 97, 103, 101, 115, 32, 52, 32, 48, 32, 82, 62, 62, 10, 101, 110, 100, 111, 98, 106, 10, 10, 51, 32, 48, 32, 111, 98, 106, 10, 60, 60, 47, 84, 121, 112, 101, 47, 79, 117, 116, 108, 105, 110, 101, 115, 47, 67, 111, 117, 110, 116, 32, 48, 62, 62, 10, 101, 110, 100, 111, 98, 106, 10, 10, 52, 32, 48, 32, 111, 98, 106, 10, 60, 60, 47, 84, 121, 112, 101, 47, 80, 97, 103, 101, 115, 47, 75, 105, 100, 115, 91, 53, 32, 48, 32, 82, 93, 47, 67, 111, 117, 110, 116, 32, 49, 62, 62, 10, 101, 110, 100, 111, 98, 106, 10, 10, 53, 32, 48, 32, 111, 98, 106, 10, 60, 60, 47, 84, 121, 112, 101, 47, 80, 97, 103, 101, 47, 80, 97, 114, 101, 110, 116, 32, 52, 32, 48, 32, 82, 47, 77, 101, 100, 105, 97, 66, 111, 120, 91, 48, 32, 48, 32, 54, 49, 50, 32, 55, 57, 50, 93, 47, 82, 101, 115, 111, 117, 114, 99, 101, 115, 32, 60, 60, 47, 80, 114, 111, 99, 83, 101, 116, 32, 54, 32, 48, 32, 82, 47, 70, 111, 110, 116, 60, 60, 47, 70, 49, 32, 55, 32, 48, 32, 82, 62, 62, 62, 62, 47, 67, 111, 110, 116, 101, 110, 116, 115, 32, 56, 32, 48, 32, 82, 62, 62, 10, 101, 110, 100, 111, 98, 106, 10, 10, 54, 32, 48, 32, 111, 98, 106, 10, 91, 47, 80, 68, 70, 47, 84, 101, 120, 116, 93, 10, 101, 110, 100, 111, 98, 106, 10, 10, 55, 32, 48, 32, 111, 98, 106, 10, 60, 60, 47, 84, 121, 112, 101, 47, 70, 111, 110, 116, 47, 83, 117, 98, 84, 121, 112, 101, 47, 84, 121, 112, 101, 49, 47, 78, 97, 109, 101, 47, 70, 49, 47, 66, 97, 115, 101, 70, 111, 110, 116, 47, 72, 101, 108, 118, 101, 116, 105, 99, 97, 47, 69, 110, 99, 111, 100, 105, 110, 103, 47, 77, 97, 99, 82, 111, 109, 97, 110, 69, 110, 99, 111, 100, 105, 110, 103, 62, 62, 10, 101, 110, 100, 111, 98, 106, 10, 10, 56, 32, 48, 32, 111, 98, 106, 10, 60, 60, 47, 76, 101, 110, 103, 116, 104, 32, 53, 48, 62, 62, 10, 115, 116, 114, 101, 97, 109, 10, 66, 84, 10, 9, 47, 70, 49, 32, 32, 50, 52, 32, 32, 84, 102, 10, 9, 49, 48, 48, 32, 32, 49, 48, 48, 32, 32, 84, 100, 10, 9, 40, 72, 101, 108, 108, 111, 32, 87, 111, 114, 108, 100, 41, 32, 84, 106, 10, 69, 84, 10, 101, 110, 100, 115, 116, 114, 101, 97, 109, 10, 101, 110, 100, 111, 98, 106, 10, 10, 57, 32, 48, 32, 111, 98, 106, 10, 40, 72, 101, 108, 108, 111, 32, 87, 111, 114, 108, 100, 33, 41, 10, 101, 110, 100, 111, 98, 106, 10, 10, 115, 116, 97, 114, 116, 120, 114, 101, 102, 10, 49, 48, 10, 37, 37, 69, 79, 70, 10]
/-- /repo/pdf/test/xref_table_chain.pdf -/
def xref_table_chain : Bytes := [37, 80, 68, 70, 45, 49, 46, 55, 10, 10, 120, 114, 101, 102, 10, 48, 32, 57, 10, 48, 48, 48, 48, 48, 48, 48, 48, 48, 48, 32, 48, 48, 48, 48, 48, 32, 102, 10, 48, 48, 48, 48, 48, 48, 48, 48, 48, 48, 32, 48, 48, 48, 48, 48, 32, 102, 10, 48, 48, 48, 48, 48, 48, 48, 48, 48, 48, 32, 48, 48, 48, 48, 48, 32, 102, 10, 48, 48, 48, 48, 48, 48, 48, 48, 48, 48, 32, 48, 48, 48, 48, 48, 32, 102, 10, 48, 48, 48, 48, 48, 48, 48, 48, 48, 48, 32, 48, 48, 48, 48, 48, 32, 102, 10, 48, 48, 48, 48, 48, 48, 48, 48, 48, 48, 32, 48, 48, 48, 48, 48, 32, 102, 10, 48, 48, 48, 48, 48, 48, 48, 48, 48, 48, 32, 48, 48, 48, 48, 48, 32, 102, 10, 48, 48, 48, 48, 48, 48, 48, 48, 48, 48, 32, 48, 48, 48, 48, 48, 32, 102, 10, 48, 48, 48, 48, 48, 48, 48, 48, 48, 48, 32, 48, 48, 48, 48, 48, 32, 102, 10, 116, 114, 97, 105, 108, 101, 114, 10, 60, 60, 47, 83, 105, 122, 101, 32, 49, 48, 47, 82, 111, 111, 116, 32, 50, 32, 48, 32, 82, 47, 80, 114, 101, 118, 32, 50, 51, 50, 62, 62, 10, 10, 120, 114, 101, 102, 10, 57, 32, 49, 10, 48, 48, 48, 48, 48, 48, 48, 48, 48, 48, 32, 48, 48, 48, 48, 48, 32, 102, 10, 116, 114, 97, 105, 108, 101, 114, 10, 60, 60, 47, 83, 105, 122, 101, 32, 49, 62, 62, 10, 10, 115, 116, 97, 114, 116, 120, 114, 101, 102, 10, 49, 48, 10, 37, 37, 69, 79, 70, 10]
/-- /repo/pdf/test/malformed_dictionary_key.pdf -/
def malformed_dictionary_key : Bytes := [49, 32, 48, 32, 111, 98, 106, 10, 60, 60, 47, 77, 97, 108, 102, 111, 114, 109, 101, 100, 82, 101, 102, 101, 114, 101, 110, 99, 101, 32, 52, 53, 32, 48, 32, 47, 72, 105, 100, 100, 101, 110, 79, 98, 106, 101, 99, 116, 32, 40, 72, 101, 108, 108, 111, 32, 87, 111, 114, 108, 100, 41, 82, 62, 62, 10, 101, 110, 100, 111, 98, 106, 10]

#guard value comments 1 = some [40, 37, 116, 104, 105, 115, 32, 105, 115, 32, 110, 111, 116, 32, 97, 32, 99, 111, 109, 109, 101, 110, 116, 41]
#guard value empty_array 1 = some [91, 93]
#guard value empty_dictionary 1 = some [60, 60, 62, 62]
#guard value names 1 = some [47, 72, 101, 108, 108, 111, 32, 47, 87, 111, 114, 108, 100, 33, 0, 113, 122]
#guard value unclosed_array 1 = some [91, 93]
#guard value unclosed_comment 1 = some [110, 117, 108, 108]
#guard value unclosed_hex_string 1 = some [40, 41]
#guard value unclosed_name 1 = some [47]
#guard value unclosed_name_escape_1 1 = some [47, 0]
#guard value unclosed_name_escape_2 1 = some [47, 48]
#guard value unclosed_string 1 = some [40, 41]
#guard value unclosed_string_escape 1 = some [40, 92, 41]
#guard value unclosed_string_octal_1 1 = some [40, 1, 41]
#guard value unclosed_string_octal_2 1 = some [40, 10, 41]
#guard value strings 1 = some [91, 40, 110, 101, 119, 108, 105, 110, 101, 10, 110, 101, 119, 108, 105, 110, 101, 32, 99, 104, 97, 114, 10, 110, 111, 32, 110, 101, 119, 108, 105, 110, 101, 40, 98, 97, 108, 97, 110, 99, 101, 32, 112, 97, 114, 101, 110, 115, 32, 97, 108, 108, 111, 119, 101, 100, 41, 32, 101, 115, 99, 97, 112, 101, 100, 32, 112, 97, 114, 101, 110, 32, 41, 32, 92, 110, 32, 72, 101, 108, 108, 111, 63, 63, 55, 41, 32, 40, 72, 101, 108, 108, 111, 112, 41, 32, 40, 41, 32, 40, 41, 93]
#guard stream filter_ascii_85_decode 1 = some [0, 0, 0, 0, 37, 33, 70, 111, 110, 116, 84, 121, 112, 101]
#guard stream filter_ascii_hex_decode 1 = some [72, 101, 108, 108, 111, 112]
#guard stream filter_flate_decode 1 = some [104, 101, 108, 108, 111, 32, 119, 111, 114, 108, 100, 10, 104, 101, 108, 108, 111, 32, 119, 111, 114, 108, 100, 10, 104, 101, 108, 108, 111, 32, 119, 111, 114, 108, 100, 10, 104, 101, 108, 108, 111, 32, 119, 111, 114, 108, 100, 10, 104, 101, 108, 108, 111, 32, 119, 111, 114, 108, 100, 10]
#guard stream filter_lzw_decode 1 = some [104, 101, 108, 108, 111, 32, 119, 111, 114, 108, 100, 33]
#guard stream filter_lzw_tiff_decode 1 = some [104, 101, 108, 108, 111, 32, 119, 111, 114, 108, 100, 33]
#guard stream filter_multiple 1 = some [104, 101, 108, 108, 111, 32, 119, 111, 114, 108, 100, 10, 104, 101, 108, 108, 111, 32, 119, 111, 114, 108, 100, 10, 104, 101, 108, 108, 111, 32, 119, 111, 114, 108, 100, 10, 104, 101, 108, 108, 111, 32, 119, 111, 114, 108, 100, 10, 104, 101, 108, 108, 111, 32, 119, 111, 114, 108, 100, 10]
#guard stream filter_run_length_decode 1 = some [72, 101, 108, 108, 111]
#guard stream carriage_return 1 = some [72, 101, 108, 108, 111]
#guard resolved reference = some [40, 72, 101, 108, 108, 111, 32, 87, 111, 114, 108, 100, 33, 41]
#guard resolved reference_loop = some [110, 117, 108, 108]
#guard resolved reference_null = some [110, 117, 108, 108]
#guard xrefLen xref_loop = some 10
#guard xrefLen xref_repair = some 9
#guard value xref_repair 9 = some [40, 72, 101, 108, 108, 111, 32, 119, 111, 114, 108, 100, 41]
#guard xrefLen xref_stream_chain = some 11
#guard value xref_stream_chain 10 = some [40, 72, 101, 108, 108, 111, 32, 87, 111, 114, 108, 100, 33, 41]
#guard xrefLen xref_stream_index_default = some 10
#guard value xref_stream_index_default 9 = some [40, 72, 101, 108, 108, 111, 32, 87, 111, 114, 108, 100, 33, 41]
#guard xrefLen xref_table_chain = some 10
#guard (run malformed_dictionary_key 1).bind (fun r => (Obj.asDict? r.2.1.value).bind fun d => d.get? b!"HiddenObject")
  = some (.str b!"Hello World")

end Pdf.RepoTests
