#!/bin/bash
# Regenerates AXIOMS.txt: the axioms every property theorem depends on.
cd "$(dirname "$0")/../lean" || exit 1
t=$(mktemp --suffix=.lean)
cat > "$t" <<'L'
import Verif
import Lean
open Lean Elab Command
run_cmd do
  let env ← getEnv
  let names := env.constants.fold (init := #[]) fun acc n ci =>
    match n with
    | .str _ s => if (`Verif).isPrefixOf n && s.length > 4 && s.front == 'C' && ((String.Pos.Raw.get s ⟨1⟩).isDigit) then (match ci with | .thmInfo _ => acc.push n | _ => acc) else acc
    | _ => acc
  for n in names do
    IO.println s!"{n} {(← liftCoreM (collectAxioms n)).toList}"
L
lake env lean "$t" | sed 's/^Verif\.//' | sort > ../AXIOMS.txt
rm -f "$t"
wc -l ../AXIOMS.txt
