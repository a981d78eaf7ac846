import Verif.Gml.Props
/-! # C82: concrete cases -/
namespace Shadow.Gml

def exText : List Char := "\ngraph [\n  directed 1\n  name \"a\\b\"\n  node [\n    id 0\n    host_bandwidth_up \"10 Mbit\"\n  ]\n  node [\r\n\tid 7\r\n]\n  edge [\n source 0\n target 7\n latency \"1 ms\"\n packet_loss 0.5\n ]\n]".toList

def exGraph : Gml :=
  { directed := true, nodes := [⟨some 0, [("host_bandwidth_up".toList, .str "10 Mbit".toList)]⟩, ⟨some 7, []⟩]
    edges := [⟨0, 7, [("latency".toList, .str "1 ms".toList), ("packet_loss".toList, .float "0.5".toList)]⟩]
    other := [("name".toList, .str "a\\b".toList)] }

theorem ex_parse : parse exText = some exGraph := by decide +kernel

/-- There are texts in the grammar: the hypotheses of `C82_unique` and `C82_rest` hold of this one. -/
theorem ex_doc : ∃ t rest, exText = t ++ rest ∧ Doc t exGraph := C82_grammar.mp ex_parse

/-- A bracket too many ends the graph: the second node is lost. -/
example : (parse "graph [\n node [\n id 0\n ]\n ]\n node [\n id 1\n ]\n]\n".toList).map (·.nodes) = some [⟨some 0, []⟩] := by decide +kernel
/-- The classic example of the technical report is on lines; on one line it is refused. -/
example : parse "graph [ node [ id 0 ] ]".toList = none := by decide +kernel
/-- Comments and lists as values are refused. -/
example : parse "# a comment\ngraph [\n]".toList = none := by decide +kernel
example : parse "graph [\n node [\n id 0\n graphics [\n x 1\n ]\n ]\n]".toList = none := by decide +kernel
/-- An empty string and an escaped quote are refused. -/
example : parse "graph [\n label \"\"\n]".toList = none := by decide +kernel
example : parse "graph [\n label \"a \\\" b\"\n]".toList = none := by decide +kernel
/-- Negative numbers and those of more than 31 bits are no integers. -/
example : parse "graph [\n node [\n id -1\n ]\n]".toList = none := by decide +kernel
example : parse "graph [\n node [\n id 2147483648\n ]\n]".toList = none := by decide +kernel
example : (parse "graph [\n node [\n id 2147483647\n ]\n]".toList).map (·.nodes) = some [⟨some 2147483647, []⟩] := by decide +kernel
/-- Numbers: `5` is an integer, `5.` and `-5e3` are not. -/
example : (parse "graph [\n a 5\n b 5.\n c -5e3\n d .5\n e 9999999999\n]".toList).map (·.other.map Prod.snd) =
    some [.int 5, .float "5.".toList, .float "-5e3".toList, .float ".5".toList, .float "9999999999".toList] := by decide +kernel
/-- The same key or `directed` twice. -/
example : parse "graph [\n node [\n id 1\n id 2\n ]\n]".toList = none := by decide +kernel
example : parse "graph [\n directed 0\n directed 0\n]".toList = none := by decide +kernel
example : parse "graph [\n directed 2\n]".toList = none := by decide +kernel

end Shadow.Gml
