#!/usr/bin/env python3
"""Write axioms.txt: the axioms each theorem of MANIFEST.json depends on. Needs a finished `lake build` in lean/.
Also leaves the dependencies inside the project in /tmp/deps.json, for tools/mutlog.py."""
import json, os, subprocess
ROOT = os.path.dirname(os.path.dirname(os.path.abspath(__file__)))
LEAN = '''import Verif
open Lean
partial def deps (env : Environment) (todo : List Name) (seen : NameSet) : NameSet :=
  match todo with
  | [] => seen
  | n :: rest =>
    if seen.contains n then deps env rest seen else
    match env.find? n with
    | none => deps env rest seen
    | some c =>
      let used := (c.type.getUsedConstants ++ (match c.value? (allowOpaque := true) with | some v => v.getUsedConstants | none => #[])).toList
      deps env (used.filter (fun u => (`Satisfy).isPrefixOf u) ++ rest) (seen.insert n)
run_cmd do
  let env ← getEnv
  for n in [%s] do
    if !(env.contains n) then throwError m!"missing {n}" else
    let ds := deps env [n] {}
    let ax ← Lean.collectAxioms n
    IO.println s!"{n}|{" ".intercalate (ds.toList.map toString)}|{" ".intercalate (ax.toList.map toString)}"
'''
claims = json.load(open(f'{ROOT}/MANIFEST.json'))['claims']
names = []
for c in claims:
    for t in c['theorems']:
        if t not in names:
            names.append(t)
open('/tmp/axioms_query.lean', 'w').write(LEAN % ', '.join('`' + n for n in names))
out = subprocess.run(['lake', 'env', 'lean', '/tmp/axioms_query.lean'], cwd=f'{ROOT}/lean', capture_output=True, text=True)
assert out.returncode == 0, out.stdout + out.stderr
rows, deps = [], {}
for line in out.stdout.splitlines():
    n, d, a = line.split('|')
    deps[n] = d.split()
    rows.append((n, ', '.join(sorted(a.split())) or 'none'))
w = max(len(n) for n, _ in rows)
with open(f'{ROOT}/axioms.txt', 'w') as f:
    f.writelines(f'{n.ljust(w)}  {a}\n' for n, a in rows)
json.dump(deps, open('/tmp/deps.json', 'w'))
