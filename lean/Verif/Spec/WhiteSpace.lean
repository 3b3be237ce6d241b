import Verif.Spec.Lines
/-!
# White space, character by character
-/

namespace Yupp.Spec

/-- The white space of Python (`str.isspace`): tabulations, line ends, separators, blanks, the no-break space, the spaces of
    Unicode from U+1680 and U+2000 on, and the ideographic space. -/
def whiteSpaces : List Char := [
  '\x09', '\x0a', '\x0b', '\x0c', '\x0d', '\x1c', '\x1d', '\x1e', '\x1f', ' ', '\u0085', '\u00a0', '\u1680', '\u2000', '\u2001',
  '\u2002', '\u2003', '\u2004', '\u2005', '\u2006', '\u2007', '\u2008', '\u2009', '\u200a', '\u2028', '\u2029', '\u202f',
  '\u205f', '\u3000']

end Yupp.Spec
