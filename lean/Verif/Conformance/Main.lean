import Verif.Conformance.Vectors
/-
The program that runs the model on the test vectors; /verif/conformance.sh compiles and runs it. No theorem about the library depends on this file.
-/

/-- The argument is the directory of the vectors. -/
def main (args : List String) : IO UInt32 := Mls.Conformance.runAll (args.headD "/repo/testdata")
