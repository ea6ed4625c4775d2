"""Write lean/Verif/Audit.lean from MANIFEST.json.  Run from the repository root.

Compiling the module fails if a theorem of the manifest depends on an axiom other than the three
standard ones.  `python3 tools/mkaudit.py print` writes AXIOMS.md (needs a finished build)."""
import json, subprocess, sys, re
man = json.load(open('MANIFEST.json'))
names = []
for c in man['claims']:
    for t in c['theorems']:
        if t not in names:
            names.append(t)
full = [t if t.startswith('HLL.') else 'HLL.' + t for t in names]
mods = [l.split()[1] for l in open('lean/Verif.lean') if l.startswith('import Verif.Props')]
out = ''.join('import %s\n' % m for m in mods)
out += '''import Lean.Util.CollectAxioms
import Lean.Elab.Command

/-! # Axioms of the theorems in the manifest.  Written by `tools/mkaudit.py`.

Compiling this file fails if one of them depends on anything but the axioms `propext`,
`Classical.choice` and `Quot.sound` of Lean. -/

open Lean Elab Command

/-- Fail unless the theorem exists, is a theorem, and rests on the standard axioms only. -/
def HLL.Audit.check (n : Name) : CommandElabM Unit := do
  let some (.thmInfo _) := (← getEnv).find? n | throwError "{n} is not a theorem"
  for a in ← collectAxioms n do
    unless a ∈ [``propext, ``Classical.choice, ``Quot.sound] do
      throwError "{n} depends on the axiom {a}"

'''
out += 'run_cmd\n  for n in [\n' + ',\n'.join('    ``%s' % t for t in full) + '] do\n    HLL.Audit.check n\n'
open('lean/Verif/Audit.lean', 'w').write(out)
if sys.argv[1:] == ['print']:
    f = '/tmp/axioms.lean'
    open(f, 'w').write('import Verif\n' + ''.join('#print axioms %s\n' % t for t in full))
    r = subprocess.run(['lake', 'env', 'lean', f], cwd='lean', capture_output=True, text=True)
    d = {}
    for m in re.finditer(r"'([^']+)' (?:depends on axioms: \[([^\]]*)\]|does not depend on any axioms)", r.stdout):
        d[m.group(1)] = ', '.join(sorted((m.group(2) or 'none').replace('\n', ' ').split(', '))) if m.group(2) else 'none'
    assert len(d) == len(full), (len(d), len(full), r.stdout[-500:])
    with open('AXIOMS.md', 'w') as h:
        h.write('# Axioms each theorem of MANIFEST.json depends on\n\nWritten by `python3 tools/mkaudit.py print` '
                '(output of `#print axioms`).\n\n| theorem | axioms |\n|---|---|\n')
        for t in full:
            h.write('| `%s` | %s |\n' % (t, d[t]))
