#!/usr/bin/env python3
"""Test the theorems against wrong programs.

Usage: mutate.py NAME...   (names from mutants.py; no name: all not yet in the log)

For each mutant the edit is applied to the model in a scratch copy of lean/ and the project is
rebuilt.  Every declaration that no longer compiles gets its proof replaced by `sorry` (in the
scratch copy only), until everything compiles.  A theorem of the manifest is then

* failed    if its own proof, or that of a lemma it rests on, no longer compiles;
* surviving otherwise: it is still proved of the wrong program.

The mutant lists the theorems whose claim it breaks; one of these surviving is an error.  A mutant
may come with a witness: Lean code, checked against the wrong model, showing that a theorem it breaks
is false of the wrong program (not only that its proof no longer works).

With FAST=1 only the modules in CORE and those of the theorems that must fail are built and audited, with
FAST=2 only the latter, without unit tests.
"""
import json, os, re, shutil, subprocess, sys, time

VERIF = os.environ.get('SRC') or os.path.dirname(os.path.dirname(os.path.abspath(__file__)))
SCRATCH = os.environ.get('SCRATCH', '/tmp/mut/lean')
sys.path.insert(0, os.path.dirname(os.path.abspath(__file__)))

FAST = os.environ.get('FAST')
RES = os.environ.get('RES', '/tmp/mut/results.jsonl')
CORE = ['Encoding', 'Registers', 'Helpers', 'HistoryPlus', 'HistoryPF', 'State', 'Canonical', 'Deserialize',
        'Usable', 'Errors', 'Log', 'Estimator', 'Numeric']

DECL = re.compile(r'^(?:@\[[^\]]*\]\s*)?(?:private |protected |noncomputable )*'
                  r'(theorem|lemma|def|instance|example|abbrev|structure|inductive)\b\s*(\S*)')


def sync():
    os.makedirs(SCRATCH, exist_ok=True)
    keep = set()
    for d, ds, fs in os.walk(VERIF + '/lean'):
        ds[:] = [x for x in ds if x != '.lake']
        for f in fs:
            src = os.path.join(d, f)
            rel = os.path.relpath(src, VERIF + '/lean')
            if rel in ('Verif/Audit.lean', 'Verif/Tests.lean'):    # fail on purpose; see run
                continue
            keep.add(rel)
            dst = os.path.join(SCRATCH, rel)
            os.makedirs(os.path.dirname(dst), exist_ok=True)
            if not os.path.exists(dst) or open(src, 'rb').read() != open(dst, 'rb').read():
                shutil.copyfile(src, dst)
    for d, ds, fs in os.walk(SCRATCH):
        ds[:] = [x for x in ds if x != '.lake']
        for f in fs:
            if os.path.relpath(os.path.join(d, f), SCRATCH) not in keep:
                os.remove(os.path.join(d, f))
    root = open(SCRATCH + '/Verif.lean').read().replace('import Verif.Audit\n', '').replace('import Verif.Tests\n', '')
    open(SCRATCH + '/Verif.lean', 'w').write(root)
    if not os.path.exists(SCRATCH + '/.lake') and os.path.exists(VERIF + '/lean/.lake'):
        subprocess.run(['cp', '-a', VERIF + '/lean/.lake', SCRATCH + '/.lake'], check=True)


def home(theorem):
    """The module that contains a theorem."""
    r = subprocess.run(['grep', '-rlE', r'^theorem (HLL\.)?%s\b' % re.escape(theorem.replace('HLL.', '')),
                        VERIF + '/lean/Verif', '--include=*.lean'], capture_output=True, text=True)
    fs = r.stdout.split()
    if len(fs) != 1:
        r = subprocess.run(['grep', '-rlE', r'^theorem (\S*\.)?%s\b' % re.escape(theorem.split('.')[-1]),
                            VERIF + '/lean/Verif', '--include=*.lean'], capture_output=True, text=True)
        fs = r.stdout.split()
    assert fs, theorem
    return [os.path.relpath(f, VERIF + '/lean')[:-5].replace('/', '.') for f in fs]


def closure(mods):
    seen, todo = set(), list(mods)
    while todo:
        m = todo.pop()
        if m in seen:
            continue
        seen.add(m)
        t = open(VERIF + '/lean/' + m.replace('.', '/') + '.lean').read()
        todo += re.findall(r'^import (Verif\.\S+)', t, re.M)
    return seen


def build():
    try:
        r = subprocess.run('timeout 3000 lake build 2>&1', shell=True, cwd=SCRATCH,
                           capture_output=True, text=True)
        return r.stdout
    except Exception as e:
        return 'error: %s' % e


def decl_at(lines, n):
    """Start and end (0-based, exclusive) of the declaration containing 1-based line n."""
    i = n - 1
    while i >= 0 and not DECL.match(lines[i]):
        i -= 1
    j = i + 1
    while j < len(lines) and not (lines[j] and not lines[j][0].isspace()):
        j += 1
    return i, j


def declarations(errs):
    """Files and first lines of the declarations with errors, the last of each file first."""
    found = set()
    for f, n in errs:
        i, _ = decl_at(open(SCRATCH + '/' + f).read().split('\n'), n)
        found.add((f, i + 1 if i >= 0 else n))
    return sorted(found, key=lambda e: (e[0], -e[1]))


def stub(path, n):
    """Replace the proof of the declaration at line n by sorry; returns its name."""
    src = open(path).read().split('\n')
    i, j = decl_at(src, n)
    if i < 0:
        return None
    kind, name = DECL.match(src[i]).groups()
    text = '\n'.join(src[i:j])
    depth, cut = 0, None
    k = 0
    while k < len(text):
        ch = text[k]
        if ch == "'" and text[k + 2:k + 3] == "'" and text[k + 1] in '()[]{}⟨⟩':     # a character
            k += 3
            continue
        if ch in '([{⟨':
            depth += 1
        elif ch in ')]}⟩':
            depth -= 1
        elif depth == 0 and text.startswith(':=', k):
            line = text[text.rfind('\n', 0, k) + 1:k]
            if not re.match(r'\s*(let|have)\b', line):
                cut = k
                break
        elif depth == 0 and text.startswith('\n  | ', k):
            cut = k + 1
            break
        elif depth == 0 and re.match(r'\bwhere\b', text[k:]) and not text[k-1].isalnum():
            cut = k
            break
        k += 1
    if cut is None or kind in ('def', 'structure', 'inductive', 'abbrev'):
        return None
    new = text[:cut] + ':= sorry'
    if new == text:
        return None
    src[i:j] = new.split('\n') + ['']
    open(path, 'w').write('\n'.join(src))
    return name if kind != 'example' else 'example@%s:%d' % (os.path.basename(path), i + 1)


def axioms(theorems):
    f = SCRATCH + '/Verif/ZZAudit.lean'
    with open(f, 'w') as h:
        h.write('import Verif\n')
        for t in theorems:
            h.write('#print axioms HLL.%s\n' % t if not t.startswith('HLL.') else '#print axioms %s\n' % t)
    r = subprocess.run(['lake', 'env', 'lean', 'Verif/ZZAudit.lean'], cwd=SCRATCH, capture_output=True, text=True)
    os.remove(f)
    bad = set()
    for m in re.finditer(r"'([^']+)' depends on axioms: \[([^\]]*)\]", r.stdout):
        if 'sorryAx' in m.group(2):
            bad.add(m.group(1))
    n = len(re.findall(r"' (?:depends on|does not depend)", r.stdout))
    return bad, n, r.stdout


def run(m):
    t0 = time.time()
    sync()
    path = SCRATCH + '/Verif/' + m['file']
    s = open(path).read()
    assert s.count(m['old']) == m.get('n', 1), (m['name'], s.count(m['old']))
    open(path, 'w').write(s.replace(m['old'], m['new']))
    man = json.load(open(VERIF + '/MANIFEST.json'))
    thms = [t for c in man['claims'] for t in c['theorems']]
    thms = list(dict.fromkeys(thms))
    if FAST:
        mods = {'Verif.Props.' + x for x in CORE} if FAST == '1' else set()
        for t in m['breaks']:
            mods.add(home(t)[0])
        mods.add('Verif.Props.Log')
        for d, pre in (('Verif', 'Spec'), ('Verif/Model', '')):     # for the witness
            mods |= {d.replace('/', '.') + '.' + x[:-5] for x in os.listdir(VERIF + '/lean/' + d)
                     if x.startswith(pre) and x.endswith('.lean')}
        open(SCRATCH + '/Verif.lean', 'w').write(''.join('import %s\n' % x for x in sorted(mods)))
        reach = closure(mods)
        thms = [t for t in thms if any(h in reach for h in home(t))]
    wit = None
    failed, skipped = [], []
    for it in range(60):
        out = build()
        errs = sorted(set((a, int(b)) for a, b in re.findall(r'error: (Verif/\S+?\.lean):(\d+):\d+', out)))
        if not errs:
            if 'Build completed successfully' not in out:
                print(out[-3000:])
                return dict(name=m['name'], problem='build broken', tail=out[-500:])
            break
        done = 0
        for f, n in declarations(errs):
            nm = stub(SCRATCH + '/' + f, n)
            if nm:
                failed.append(nm); done += 1
            else:
                skipped.append('%s:%d' % (f, n))
        if not done:
            print(out[-3000:])
            return dict(name=m['name'], problem='cannot stub', where=errs)
    if m.get('witness'):
        f = SCRATCH + '/Verif/ZZWitness.lean'
        open(f, 'w').write(m['witness'])
        r = subprocess.run(['timeout', '900', 'lake', 'env', 'lean', 'Verif/ZZWitness.lean'], cwd=SCRATCH,
                           capture_output=True, text=True)
        wit = (r.returncode == 0 and 'sorry' not in r.stdout)
        if not wit:
            print(r.stdout[:3000])
        os.remove(f)
    tests = None
    if FAST != '2':
        r = subprocess.run(['timeout', '900', 'lake', 'env', 'lean', VERIF + '/lean/Verif/Tests.lean'], cwd=SCRATCH,
                           capture_output=True, text=True)
        tests = 'pass' if r.returncode == 0 else 'fail'
    bad, n, out = axioms(thms)
    if n != len(thms):
        print(out[-2000:])
        return dict(name=m['name'], problem='audit broken', tail=out[-500:])
    failing = [t for t in thms if ('HLL.' + t if not t.startswith('HLL.') else t) in bad]
    short = [t.replace('HLL.', '') for t in failing]
    surv = [t.replace('HLL.', '') for t in thms if t not in failing]
    missed = [t for t in m['breaks'] if t not in short]
    return dict(name=m['name'], file=m['file'], old=m['old'], new=m['new'], claim=m['claim'],
                first=failed, failing=short, surviving=surv, missed=missed, witness=wit, unit_tests=tests,
                seconds=round(time.time() - t0), skipped=skipped, fast=FAST)


def main():
    from mutants import MUTANTS
    by = {m['name']: m for m in MUTANTS}
    names = sys.argv[1:]
    if not names:
        done = set()
        if os.path.exists(RES):
            done = {json.loads(l)['name'] for l in open(RES)}
        names = [m['name'] for m in MUTANTS if m['name'] not in done]
    for nm in names:
        r = run(by[nm])
        with open(RES, 'a') as h:
            h.write(json.dumps(r, ensure_ascii=False) + '\n')
        print(nm, 'problem' if 'problem' in r else 'missed=%s witness=%s failing=%d surviving=%d %ss' % (
            r['missed'], r['witness'], len(r['failing']), len(r['surviving']), r['seconds']), flush=True)


if __name__ == '__main__':
    main()
