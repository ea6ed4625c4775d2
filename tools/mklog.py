#!/usr/bin/env python3
"""Write seeded/LOG.jsonl from the results of mutate.py: one line per mutant.

Usage: mklog.py [RESULTS]   (default /tmp/mut/results.jsonl)
"""
import json, os, re, sys
VERIF = os.path.dirname(os.path.dirname(os.path.abspath(__file__)))
LOG = VERIF + '/seeded/LOG.jsonl'
RES = sys.argv[1] if len(sys.argv) > 1 else '/tmp/mut/results.jsonl'
DEF = re.compile(r'^(?:@\[[^\]]*\]\s*)?(?:private |protected |noncomputable )*(?:def|abbrev|instance|structure|inductive)\s+(\S+)', re.M)


def definition(file, old):
    t = open(VERIF + '/lean/Verif/' + file).read()
    i = t.find(old)
    if i < 0:
        return None
    j = t.find('\n', i + len(old))
    ms = [m.group(1) for m in DEF.finditer(t[:j if j > 0 else len(t)])]
    ns = re.findall(r'^namespace (\S+)', t[:i], re.M)
    return '.'.join(ns[:2]) + '.' + ms[-1] if ms else None


done = {}
if os.path.exists(LOG):
    for l in open(LOG):
        d = json.loads(l)
        done[d['mutant']] = d
for l in open(RES):
    r = json.loads(l)
    if r.get('problem'):
        continue
    old = done.get(r['name'], {})
    done[r['name']] = {
        'mutant': r['name'],
        'definition': definition(r['file'], r['old']) or old.get('definition'),
        'file': 'lean/Verif/' + r['file'],
        'edit': {'old': r['old'], 'new': r['new']},
        'claim': r['claim'],
        'first_failure': r.get('first'),
        # FAST runs build part of the project: what failed in earlier runs stays
        'theorems_failed': sorted(set(r['failing']) | (set(old.get('theorems_failed', [])) if r.get('fast') else set())),
        'broken_but_still_proved': r['missed'],
        'theorems_tightened': old.get('theorems_tightened', []),
        'counterexample_checked': r['witness'] if r.get('witness') is not None else old.get('counterexample_checked'),
        'unit_tests_of_the_model': r.get('unit_tests') or old.get('unit_tests_of_the_model'),
    }
with open(LOG, 'w') as f:
    for d in done.values():
        f.write(json.dumps(d, ensure_ascii=False) + '\n')
print(len(done), [k for k, d in done.items() if not d['definition'] or d['broken_but_still_proved']])
