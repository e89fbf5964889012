/-!
# Vocabulary: the text of a data file

Nothing here refers to the model of the C code.
-/

namespace Nip.Spec

/-- a line of words with commas between them -/
def line (words : List (List Char)) : List Char := List.intercalate [','] words ++ ['\n']

/-- a data file: a line of words, and then for each series its lines and an empty line -/
def dataText (header : List (List Char)) (series : List (List (List (List Char)))) : List Char :=
  line header ++ (series.map (fun rows => (rows.map line).flatten ++ ['\n'])).flatten

end Nip.Spec
