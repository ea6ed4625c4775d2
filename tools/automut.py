#!/usr/bin/env python3
"""Small automatic edits of the model, one at a time: which of them does no theorem notice?

Usage: automut.py [FILE...]   (files of lean/Verif/Model; default: all)

Every integer literal, comparison and operator of the definitions is changed in turn in a scratch
copy (SCRATCH), and the project is built up to the first error.  An edit is

* invalid   if the edited file does not compile,
* noticed   if a proof no longer compiles,
* unnoticed if everything still compiles.  These are looked at by hand.

Results go to RES, one line per edit.  Edits already there are skipped.
"""
import json, os, random, re, signal, subprocess, sys, time
VERIF = os.environ.get('SRC') or os.path.dirname(os.path.dirname(os.path.abspath(__file__)))
SCRATCH = os.environ.get('SCRATCH', '/tmp/mut/auto')
RES = os.environ.get('RES', '/tmp/mut/auto.jsonl')
os.environ['SCRATCH'] = SCRATCH
sys.path.insert(0, os.path.dirname(os.path.abspath(__file__)))
import mutate

WORDS = {'addU8': 'subU8', 'subU8': 'addU8', 'addUsize': 'subUsize', 'subUsize': 'addUsize', 'mulUsize': 'addUsize',
         'addU32': 'subU32', 'subU32': 'addU32', 'shl': 'shr', 'shr': 'shl', 'F64.add': 'F64.sub', 'F64.sub': 'F64.add',
         'F64.mul': 'F64.div', 'F64.div': 'F64.mul', 'F64.le': 'F64.lt', 'F64.lt': 'F64.le', 'true': 'false',
         'false': 'true', 'min': 'max', 'max': 'min', 'add': 'sub', 'sub': 'add', 'mul': 'div', 'div': 'mul',
         'le': 'lt', 'lt': 'le', 'gt': 'lt', 'earlyExit': 'branchless', 'isNone': 'isSome', 'isSome': 'isNone',
         'head?': 'getLast?', 'reverse': 'id', 'setWidth': 'signExtend', 'none': 'some default', 'extract64': 'extract32'}
OPS = {'<': '≤', '≤': '<', '>': '≥', '≥': '>', '=': '≠', '≠': '=', '+': '-', '-': '+', '*': '+', '/': '*', '%': '/',
       '&&&': '|||', '|||': '&&&', '<<<': '>>>', '>>>': '<<<', '∧': '∨', '∨': '∧', '^': '*', '&&': '||', '||': '&&',
       '++': None, '==': '!=', '!=': '==', '^^^': '|||'}
TOK = re.compile(r'(?P<c>/-.*?-/|--[^\n]*)|(?P<s>"[^"\n]*")|(?P<w>[A-Za-z_][\w.\'?!]*|\.[A-Za-z_][\w\'?!]*|\.\d+)'
                 r'|(?P<n>0x[0-9A-Fa-f]+|\d+)|(?P<o>:=|=>|<-|->|<\||\|>|&&&|\|\|\||\^\^\^|<<<|>>>|\+\+|==|!=|&&|\|\||>>=|[<≤>≥=≠+\-*/%∧∨^])',
                 re.S)


def sites(text):
    for m in TOK.finditer(text):
        t = m.group()
        line = text[text.rfind('\n', 0, m.start()) + 1:text.find('\n', m.start())]
        if line.startswith(('import', 'namespace', 'open', 'end', 'set_option', 'variable', 'theorem', '@[', 'section')):
            continue
        if m.group('n'):
            v = int(t, 0)
            yield m.start(), t, str(v + 1)
            if v > 0:
                yield m.start(), t, str(v - 1)
        elif m.group('w'):
            if t in WORDS:
                yield m.start(), t, WORDS[t]
            elif t == '.1':
                yield m.start(), t, '.2'
            elif t == '.2':
                yield m.start(), t, '.1'
        elif m.group('o') and OPS.get(t):
            yield m.start(), t, OPS[t]


STAGES = [['Verif.Proofs.PlusRep', 'Verif.Proofs.PFRep'], ['Verif.Proofs.Count'], ['Verif.Props.HistoryPF'], []]


def build():
    """The first error, in the modules next to the model first."""
    for targets in STAGES:
        first, tail = build_one(targets)
        if first:
            break
    return first, tail


def build_one(targets):
    p = subprocess.Popen(['lake', 'build'] + targets, cwd=SCRATCH, stdout=subprocess.PIPE, stderr=subprocess.STDOUT, text=True,
                         start_new_session=True)
    first, tail = None, ''
    for l in p.stdout:
        tail = (tail + l)[-2000:]
        m = re.match(r'error: (Verif/\S+?\.lean):(\d+)', l)
        if m:
            first = m.group(1) + ':' + m.group(2)
            os.killpg(p.pid, signal.SIGKILL)
            break
    p.wait()
    return first, tail


def main():
    files = sys.argv[1:] or sorted(os.listdir(VERIF + '/lean/Verif/Model'))
    done = set()
    if os.path.exists(RES):
        done = {tuple(json.loads(l)['edit']) for l in open(RES)}
    for f in files:
        src = open(VERIF + '/lean/Verif/Model/' + f).read()
        ss = list(sites(src))
        if len(ss) > 400:
            random.seed(1)
            ss = sorted(random.sample(ss, 24))
        for pos, old, new in ss:
            key = (f, pos, old, new)
            if key in done:
                continue
            mutate.sync()
            path = SCRATCH + '/Verif/Model/' + f
            open(path, 'w').write(src[:pos] + new + src[pos + len(old):])
            t0 = time.time()
            first, tail = build()
            if first and first.startswith('Verif/Model/'):
                verdict = 'invalid'
            elif first:
                verdict = 'noticed'
            elif 'Build completed successfully' in tail:
                verdict = 'unnoticed'
            else:
                verdict = 'problem'
            n = src.count('\n', 0, pos) + 1
            line = src.split('\n')[n - 1]
            with open(RES, 'a') as h:
                h.write(json.dumps(dict(edit=key, line=n, text=line, verdict=verdict, first=first,
                                        seconds=round(time.time() - t0)), ensure_ascii=False) + '\n')
            if verdict in ('unnoticed', 'problem'):
                print('%s %s:%d %s -> %s | %s' % (verdict, f, n, old, new, line), flush=True)


if __name__ == '__main__':
    main()
