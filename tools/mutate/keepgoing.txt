import Lean
open Lean Elab
/- Elaborates a file, prints the positions of its errors and writes its .olean even when there are errors (a declaration that
failed is then present only as far as Lean's error recovery adds it), so that files importing it are still checked.
arguments: file module output -/
unsafe def main (args : List String) : IO UInt32 := do
  let [file, modName, out] := args | return 2
  initSearchPath (← findSysroot)
  enableInitializersExecution
  let input ← IO.FS.readFile file
  let ictx := Parser.mkInputContext input file
  let (header, ps, msgs) ← Parser.parseHeader ictx
  let (env, msgs) ← processHeader header {} msgs ictx
  let env := env.setMainModule modName.toName
  let st := Command.mkState env msgs {}
  let s ← IO.processCommands ictx ps st
  for m in s.commandState.messages.toList do
    if m.severity == .error then
      IO.println s!"error: {file}:{m.pos.line}:{m.pos.column}: {(← m.data.toString).take 100}"
  writeModule s.commandState.env out
  return 0
