import Verif.Model.Parse
/-!
# The text of the library `stdlib.yu`
-/

namespace Yupp

/-- The lines of `lib/stdlib.yu:1-119`, without their ends. -/
def stdlibLines : List Str :=
  [['(', '$', '!'],
   ['\t', '(', '$', 'd', 'i', 'c', 't', ' ', 'I', 'D'],
   ['\t', '\t', '(', '`', ' ', 'i', 'd', '_', '0', ' ', ' ', ' ', ' ', ' ', ' ', ' ', 'i', 'd', '_', '1', ' ', ' ', ' ', ' ', ' ', ' ', ' ', '.', '.', '.', ' ', 'i', 'd', '_', 'N', ' ', ')'],
   ['\t', '\t', '(', '`'],
   ['\t', '\t', '(', ' ', ' ', 'i', 'd', '_', '0', '_', 'v', 'a', 'l', '_', '0', ' ', 'i', 'd', '_', '1', '_', 'v', 'a', 'l', '_', '0', ' ', '.', '.', '.', ' ', 'i', 'd', '_', 'N', '_', 'v', 'a', 'l', '_', '0', ' ', ')'],
   ['\t', '\t', '(', ' ', ' ', 'i', 'd', '_', '0', '_', 'v', 'a', 'l', '_', '1', ' ', 'i', 'd', '_', '1', '_', 'v', 'a', 'l', '_', '1', ' ', '.', '.', '.', ' ', 'i', 'd', '_', 'N', '_', 'v', 'a', 'l', '_', '1', ' ', ')'],
   ['\t', '\t', ' ', ' ', ' ', ' ', ' ', ' ', ' ', ' ', ' ', ' ', ' ', ' ', ' ', ' ', ' ', ' ', ' ', ' ', ' ', ' ', ' ', ' ', ' ', ' ', ' ', '.', '.', '.'],
   ['\t', '\t', '(', ' ', ' ', 'i', 'd', '_', '0', '_', 'v', 'a', 'l', '_', 'K', ' ', 'i', 'd', '_', '1', '_', 'v', 'a', 'l', '_', 'K', ' ', '.', '.', '.', ' ', 'i', 'd', '_', 'N', '_', 'v', 'a', 'l', '_', 'K', ' ', ')'],
   ['\t', '\t', ')'],
   ['\t', ')'],
   ['\t', '(', '$', 'e', 'a', 'c', 'h', '-', 'I', 'D', ' ', '\\', 'i', '.', '(', '$', 'i', ' ', 'i', 'd', '_', 'N', ')', ')'],
   [')'],
   ['(', '$', 'm', 'a', 'c', 'r', 'o', ' ', 'd', 'i', 'c', 't', ' ', '(', 'i', 'd', ' ', 'c', 'o', 'l', 's', ' ', 'b', 'o', 'd', 'y', ')'],
   ['\t', '(', '$', 's', 'e', 't', ' ', 'c', 'o', 'l', 's', '-', '(', '$', 'i', 'd', ')', ' ', '(', '$', 'r', 'a', 'n', 'g', 'e', ' ', '(', '$', 'l', 'e', 'n', ' ', '(', '(', '$', 'c', 'o', 'l', 's', ')', ')', ' ', ')', ')', ')'],
   ['\t', '(', '$', 's', 'e', 't', ' ', 'e', 'a', 'c', 'h', '-', '(', '$', 'i', 'd', ')', ' ', '(', '$', 'r', 'a', 'n', 'g', 'e', ' ', '(', '$', 'l', 'e', 'n', ' ', '(', '(', '$', 'b', 'o', 'd', 'y', ')', ')', ' ', ')', ')', ')'],
   ['\t', '(', '$', 's', 'e', 't', ' ', '(', '(', '$', 'c', 'o', 'l', 's', ')', ')'],
   ['\t', '\t', '(', '$', 'c', 'o', 'l', 's', '-', '(', '$', 'i', 'd', ')', ' ', '\\', '_', '_', 'i', '.', '(', '$', ' ', '(', '(', '$', 'b', 'o', 'd', 'y', ')', ')', ' ', '\\', '_', '_', 'v', 'a', 'r', '.', '(', '$', '_', '_', 'i', ' ', '_', '_', 'v', 'a', 'r', ')', ')', ')'],
   ['\t', ')'],
   [')'],
   [],
   ['(', '$', '!'],
   ['\t', '(', '$', 'i', 'f', ' ', 'c', 'o', 'n', 'd', ' ', '[', 'l', 'e', 'g', '_', 'T', ']', ' ', '[', 'l', 'e', 'g', '_', 'F', ']', ')'],
   [')'],
   ['(', '$', 's', 'e', 't', ' ', 'i', 'f', ' ', '\\', 'c', 'o', 'n', 'd', '.', '\\', 't', 'h', 'e', 'n', ':', '[', ']', '.', '\\', 'e', 'l', 's', 'e', ':', '[', ']', '.', '(', '$', ' ', 't', 'h', 'e', 'n', ' ', '?', ' ', 'c', 'o', 'n', 'd', ' ', '|', ' ', 'e', 'l', 's', 'e', ')', ')'],
   [],
   ['(', '$', '!'],
   ['\t', '(', '$', 'u', 'n', 'l', 'e', 's', 's', ' ', 'c', 'o', 'n', 'd', ' ', '[', 'l', 'e', 'g', '_', 'F', ']', ' ', '[', 'l', 'e', 'g', '_', 'T', ']', ')'],
   [')'],
   ['(', '$', 's', 'e', 't', ' ', 'u', 'n', 'l', 'e', 's', 's', ' ', '\\', 'c', 'o', 'n', 'd', '.', '\\', 't', 'h', 'e', 'n', ':', '[', ']', '.', '\\', 'e', 'l', 's', 'e', ':', '[', ']', '.', '(', '$', ' ', 'e', 'l', 's', 'e', ' ', '?', ' ', 'c', 'o', 'n', 'd', ' ', '|', ' ', 't', 'h', 'e', 'n', ')', ')'],
   [],
   ['(', '$', '!'],
   ['\t', '(', '$', 'u', 'n', 'f', 'o', 'l', 'd', ' ', 'N', ' ', '[', 'v', 'a', 'l', '_', '0', ']', ' ', '[', 'v', 'a', 'l', '_', '1', ']', ' ', '[', '.', '.', '.', ']', ' ', '\\', 'n', '.', '(', 'v', 'a', 'l', '_', '(', '$', 'n', ')', ')', ')'],
   [')'],
   ['(', '$', 's', 'e', 't', ' ', 'u', 'n', 'f', 'o', 'l', 'd', ' ', '\\', 'c', 'o', 'u', 'n', 't', '.', '\\', '.', '.', '.', '(', '$', 'l', 'e', 't'],
   ['\t', '(', '_', '_', 'l', 'a', 's', 't', ' ', '_', '_', 'f', 'u', 'n', 'c', ')', ' ', '(', '(', '$', 's', 'u', 'b', ' ', '(', '$', 'l', 'e', 'n', ' ', '(', '$', 'l', 'a', 'z', 'y', ' ', '_', '_', 'v', 'a', '_', 'a', 'r', 'g', 's', '_', '_', ')', ')', ' ', '1', ')', ' ', '(', '$', '_', '_', 'l', 'a', 's', 't', ' ', '(', '$', 'l', 'a', 'z', 'y', ' ', '_', '_', 'v', 'a', '_', 'a', 'r', 'g', 's', '_', '_', ')', ')', ')'],
   ['\t', '(', '$', '(', '$', 'r', 'a', 'n', 'g', 'e', ' ', 'c', 'o', 'u', 'n', 't', ')', ' ', '\\', '_', '_', 'i', '.', '(', '$', 'i', 'f', ' ', '{', ' ', '_', '_', 'i', ' ', '<', ' ', '_', '_', 'l', 'a', 's', 't', ' ', '}', ' ', '(', '$', '_', '_', 'i', ' ', '(', '$', 'l', 'a', 'z', 'y', ' ', '_', '_', 'v', 'a', '_', 'a', 'r', 'g', 's', '_', '_', ')', ')', ' ', '(', '$', '_', '_', 'f', 'u', 'n', 'c', ' ', '_', '_', 'i', ')', ')', ')'],
   [')', ')'],
   [],
   ['(', '$', '!'],
   ['\t', '(', '$', 'd', 'o', ',', ',', 'f', 'o', 'o', '(', ')', ';', ' ', 'b', 'a', 'r', '(', ')', ';', ' ', ')'],
   [')'],
   ['(', '$', 'm', 'a', 'c', 'r', 'o', ' ', 'd', 'o', ' ', '(', 'b', 'o', 'd', 'y', ')', 'd', 'o', ' ', '{'],
   ['(', '$', 'b', 'o', 'd', 'y', ')'],
   ['}', ' ', 'w', 'h', 'i', 'l', 'e', ' ', '(', ' ', '0', ' ', ')', ')'],
   [],
   ['(', '$', '!', ' ', '.', '.', '.', 'o', 'r', ' ', 'u', 's', 'i', 'n', 'g', ' ', 'G', 'N', 'U', ' ', 'e', 'x', 't', 'e', 'n', 's', 'i', 'o', 'n', ' ', ')'],
   ['(', '$', 'm', 'a', 'c', 'r', 'o', ' ', 'f', 'o', 'o', ' ', '(', 'b', 'o', 'd', 'y', ')', '(', '{'],
   ['(', '$', 'b', 'o', 'd', 'y', ')'],
   ['}', ')', ')'],
   [],
   ['(', '$', '!'],
   ['\t', '(', '$', 'd', 'e', 'f', 'i', 'n', 'e', ',', ',', 'a', 'r', 'r', 'a', 'y', '_', 'l', 'e', 'n', 'g', 't', 'h', '(', ' ', 'x', ' ', ')', ',', ',', '(', ' ', 's', 'i', 'z', 'e', 'o', 'f', '(', ' ', 'x', ' ', ')', ' ', '/', ' ', 's', 'i', 'z', 'e', 'o', 'f', '(', '(', ' ', 'x', ' ', ')', '[', ' ', '0', ' ', ']', ')', ')', ')'],
   [')'],
   ['(', '$', 's', 'e', 't', ' ', '_', '_', 'E', 'O', 'L', '_', '_', ' ', 'E', 'O', 'L', ' ', '?', ' ', '(', '$', 'n', 'o', 't', ' ', '(', '$', 'i', 's', 'a', 't', 'o', 'm', ' ', 'E', 'O', 'L', ')', ')', ' ', '|', ' ', ',', ','],
   [')'],
   ['(', '$', 's', 'e', 't', ' ', 'd', 'e', 'f', 'i', 'n', 'e', ' ', '\\', 's', 'i', 'g', '.', '\\', 'b', 'o', 'd', 'y', '.', '(', '$', 'j', 'o', 'i', 'n', ' ', '(', '$', 's', 'p', 'l', 'i', 't', ' ', '[', '(', '$', 'u', 'n', 'q', ' ', '"', '#', 'd', 'e', 'f', 'i', 'n', 'e', '"', ')', ' ', '(', '$', 's', 'i', 'g', ')', ' ', '(', '$', 'b', 'o', 'd', 'y', ')', ']', ' ', '_', '_', 'E', 'O', 'L', '_', '_', ')', ',', ',', ' ', '\\', '(', '$', '_', '_', 'E', 'O', 'L', '_', '_', ')', ')', ')'],
   [],
   ['(', '$', '!'],
   ['\t', '(', '$', 'd', 'e', 'f', ' ', 'L', 'I', 'N', 'K', '_', 'M', 'O', 'D', 'U', 'L', 'E', ')'],
   [')'],
   ['(', '$', 'm', 'a', 'c', 'r', 'o', ' ', 'd', 'e', 'f', ' ', '(', 'n', 'a', 'm', 'e', ')', '(', '$', 's', 'e', 't', ' ', '(', '$', 'n', 'a', 'm', 'e', ')', ' ', '1', ')'],
   ['(', '$', 'u', 'n', 'q', ' ', '"', '#', 'd', 'e', 'f', 'i', 'n', 'e', '"', ')', ' ', '(', '$', 'n', 'a', 'm', 'e', ')', ')'],
   [],
   ['(', '$', '!'],
   ['\t', '(', '$', 'u', 'n', 'd', 'e', 'f', ' ', 'L', 'I', 'N', 'K', '_', 'M', 'O', 'D', 'U', 'L', 'E', ')'],
   [')'],
   ['(', '$', 'm', 'a', 'c', 'r', 'o', ' ', 'u', 'n', 'd', 'e', 'f', ' ', '(', 'n', 'a', 'm', 'e', ')', '(', '$', 's', 'e', 't', ' ', '(', '$', 'n', 'a', 'm', 'e', ')', ' ', '0', ')'],
   ['(', '$', 'u', 'n', 'q', ' ', '"', '#', 'u', 'n', 'd', 'e', 'f', '"', ')', ' ', ' ', '(', '$', 'n', 'a', 'm', 'e', ')', ')'],
   [],
   ['(', '$', '!'],
   ['\t', '(', '$', 'd', 'e', 'f', '-', 'i', 'f', ' ', 'L', 'I', 'N', 'K', '_', 'M', 'O', 'D', 'U', 'L', 'E', ' ', 'L', 'I', 'N', 'K', '_', 'M', 'O', 'D', 'U', 'L', 'E', '_', 'T', 'E', 'S', 'T', ')'],
   [')'],
   ['(', '$', 'm', 'a', 'c', 'r', 'o', ' ', 'd', 'e', 'f', '-', 'i', 'f', ' ', '(', 'c', 'o', 'n', 'd', ' ', 'n', 'a', 'm', 'e', ')', '(', '$', 's', 'e', 't', ' ', '(', '$', 'n', 'a', 'm', 'e', ')', ' ', '1', ' ', '?', ' ', '(', '$', 'c', 'o', 'n', 'd', ')', ' ', '|', ' ', '0', ')'],
   ['(', '$', 'i', 'f', ' ', '(', '$', 'n', 'a', 'm', 'e', ')', ' ', '[', '(', '$', 'u', 'n', 'q', ' ', '"', '#', 'd', 'e', 'f', 'i', 'n', 'e', '"', ')', ' ', '(', '$', 'n', 'a', 'm', 'e', ')', ']', ')', ')'],
   [],
   ['(', '$', '!'],
   ['\t', '(', '$', 's', 'k', 'i', 'p', '-', 'i', 'f', '-', 'n', 'o', 't', ' ', 'L', 'I', 'N', 'K', '_', 'M', 'O', 'D', 'U', 'L', 'E', ')'],
   [')'],
   ['(', '$', 'm', 'a', 'c', 'r', 'o', ' ', 's', 'k', 'i', 'p', '-', 'i', 'f', ' ', '(', 'c', 'o', 'n', 'd', ')', '(', '$', 'i', 'f', ' ', '(', '$', 'c', 'o', 'n', 'd', ')', ' ', '(', '$', 's', 'k', 'i', 'p', ')', ')', ')'],
   ['(', '$', 'm', 'a', 'c', 'r', 'o', ' ', 's', 'k', 'i', 'p', '-', 'i', 'f', '-', 'n', 'o', 't', ' ', '(', 'c', 'o', 'n', 'd', ')', '(', '$', 'i', 'f', ' ', '(', '$', 'n', 'o', 't', ' ', '(', '$', 'c', 'o', 'n', 'd', ')', ')', ' ', '(', '$', 's', 'k', 'i', 'p', ')', ')', ')'],
   [],
   ['(', '$', '!'],
   ['\t', '(', '$', 'B', 'I', 'N', ',', ',', '1', '1', '0', '0', '1', '0', '1', '0', '1', '1', '0', '0', '1', '0', '1', '0', '0', '0', '0', '0', ')'],
   [')'],
   ['(', '$', 's', 'e', 't', ' ', 'B', 'I', 'N', ' ', '\\', 'b', '.', '(', '$', 'a', 't', 'o', 'i', ' ', 'b', ' ', '2', ')', ')'],
   [],
   ['(', '$', '!'],
   ['\t', '(', '$', 'B', 'B', ',', ',', '1', '0', '1', '1', '0', '0', '1', '1', ',', ',', '1', '0', '1', '1', '0', '0', '1', '0', ',', ',', '1', '0', '1', '1', '0', '0', '0', '1', ',', ',', '1', '0', '1', '1', '0', '0', '0', '0', ')'],
   [')'],
   ['(', '$', 's', 'e', 't', ' ', 'B', 'B', ' ', '\\', '.', '.', '.', '(', '$', 's', 'u', 'm', ' ', '(', '$', '(', '$', 'r', 'a', 'n', 'g', 'e', ' ', '(', '$', 'l', 'e', 'n', ' ', '_', '_', 'v', 'a', '_', 'a', 'r', 'g', 's', '_', '_', ')', ')', ' ', '\\', '_', '_', 'i', '.', '{', ' ', '(', '$', 'B', 'I', 'N', ' ', '(', '$', '_', '_', 'i', ' ', '(', '$', 'r', 'e', 'v', 'e', 'r', 's', 'e', 'd', ' ', '_', '_', 'v', 'a', '_', 'a', 'r', 'g', 's', '_', '_', ')', ')', ')', ' ', '<', '<', ' ', '(', '$', '_', '_', 'i', ')', ' ', '*', ' ', '8', ' ', '}', ')', ')', ')'],
   [],
   ['(', '$', '!'],
   ['\t', '(', '$', 'd', 'e', 'f', '-', 'f', 'n', '-', 'a', 'r', 'g', 'v', ' ', 'i', 'n', 't', ' ', 's', 'u', 'm', 'i', ' ', ']'],
   ['\t', '\t', 'i', 'n', 't', ' ', 'r', 'e', 's', 'u', 'l', 't', ' ', '=', ' ', '0', ';'],
   ['\t', '\t', '(', '$', ' ', '&', 'a', 'r', 'g', '-', 'b', 'e', 'g', 'i', 'n', ')'],
   ['\t', '\t', 'w', 'h', 'i', 'l', 'e', ' ', '(', ' ', '(', '$', ' ', '&', 'a', 'r', 'g', '-', 'c', 'o', 'u', 'n', 't', ')', '-', '-', ' ', ')', ' ', 'r', 'e', 's', 'u', 'l', 't', ' ', '+', '=', ' ', '(', '$', ' ', '&', 'a', 'r', 'g', '-', 'v', 'a', 'l', 'u', 'e', ' ', '&', 't', 'y', 'p', 'e', ')', ';'],
   ['\t', '\t', '(', '$', ' ', '&', 'a', 'r', 'g', '-', 'e', 'n', 'd', ')'],
   ['\t', '\t', 'r', 'e', 't', 'u', 'r', 'n', ' ', '(', ' ', 'r', 'e', 's', 'u', 'l', 't', ' ', ')', ';'],
   ['\t', '[', ' ', ')'],
   [')'],
   ['(', '$', 's', 'e', 't', ' ', 'd', 'e', 'f', '-', 'f', 'n', '-', 'a', 'r', 'g', 'v', ' ', '\\', 't', 'y', 'p', 'e', '.', '\\', 'n', 'a', 'm', 'e', '.', '\\', 't', 'y', 'p', 'e', '.', '.', '\\', 'a', 'r', 'g', '-', 'b', 'e', 'g', 'i', 'n', '.', '.', '\\', 'a', 'r', 'g', '-', 'c', 'o', 'u', 'n', 't', '.', '.', '\\', 'a', 'r', 'g', '-', 'v', 'a', 'l', 'u', 'e', '.', '.', '\\', 'a', 'r', 'g', '-', 'e', 'n', 'd', '.', '.', '\\', 'b', 'o', 'd', 'y', '.', ']'],
   ['(', '$', 't', 'y', 'p', 'e', ')', ' ', '(', '$', 'n', 'a', 'm', 'e', ')', '(', ' ', 'i', 'n', 't', ' ', 'a', 'r', 'g', 'c', 'n', 't', ',', ' ', '.', '.', '.', ' ', ')'],
   ['{'],
   ['\t', '(', '$', 'b', 'o', 'd', 'y', ' ', '\\', 't', 'y', 'p', 'e', ' ', 't', 'y', 'p', 'e', ' ', '\\', 'a', 'r', 'g', '-', 'b', 'e', 'g', 'i', 'n', ' ', ']'],
   ['\t', '\t', 'v', 'a', '_', 'l', 'i', 's', 't', ' ', 'a', 'r', 'g', 'p', 't', 'r', ';'],
   ['\t', '\t', 'v', 'a', '_', 's', 't', 'a', 'r', 't', '(', ' ', 'a', 'r', 'g', 'p', 't', 'r', ',', ' ', 'a', 'r', 'g', 'c', 'n', 't', ' ', ')', ';'],
   ['\t', '[', '\\', 'a', 'r', 'g', '-', 'c', 'o', 'u', 'n', 't', ' ', ']'],
   ['\t', '\t', 'a', 'r', 'g', 'c', 'n', 't'],
   ['\t', '[', '\\', 'a', 'r', 'g', '-', 'v', 'a', 'l', 'u', 'e', ' ', '\\', 't', 'y', 'p', 'e', '.', ']'],
   ['\t', '\t', 'v', 'a', '_', 'a', 'r', 'g', '(', ' ', 'a', 'r', 'g', 'p', 't', 'r', ',', ' ', '(', '$', 't', 'y', 'p', 'e', ')', ' ', ')'],
   ['\t', '[', '\\', 'a', 'r', 'g', '-', 'e', 'n', 'd', ' ', ']'],
   ['\t', '\t', 'v', 'a', '_', 'e', 'n', 'd', '(', ' ', 'a', 'r', 'g', 'p', 't', 'r', ' ', ')', ';'],
   ['\t', '[', '\\', 'b', 'o', 'd', 'y', ' ', ')'],
   ['}'],
   ['[', ' ', ')'],
   [],
   ['(', '$', 's', 'e', 't', ' ', 'I', 'N', 'T', '_', 'M', 'A', 'X', ' ', '{', ' ', 's', 'y', 's', '.', 'm', 'a', 'x', 's', 'i', 'z', 'e', ' ', '}', ')'],
   [],
   ['(', '$', 's', 'e', 't', ' ', 'I', 'N', 'T', '_', 'M', 'I', 'N', ' ', '{', ' ', '-', 's', 'y', 's', '.', 'm', 'a', 'x', 's', 'i', 'z', 'e', ' ', '-', ' ', '1', ' ', '}', ')']]

end Yupp
