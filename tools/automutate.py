#!/usr/bin/env python3
"""Automatic mutants of the model.

usage: automutate.py list            print the number of mutants per file
       automutate.py run SEED COUNT  run COUNT random mutants, one JSON line each to OUT

One token of one definition in Verif/Model is changed in a scratch copy and the project is rebuilt. The build is stopped at the first
error outside the model. A mutant after which everything still builds has survived: it is equivalent, or a theorem is too weak."""
import json, os, pathlib, random, re, shutil, signal, subprocess, sys
ROOT = pathlib.Path(__file__).resolve().parent.parent / 'lean'
SCRATCH = pathlib.Path(os.environ.get('SCRATCH', '/tmp/auto/lean'))
CLEAN = pathlib.Path(os.environ.get('CLEAN', '/tmp/auto/clean'))
OUT = pathlib.Path(os.environ.get('OUT', '/tmp/auto/out.jsonl'))
SKIP = {'Example.lean', 'Example17.lean', 'Prelude.lean'}
RULES = [
    (r' \+ 1\b', ['']), (r' - 1\b', ['', ' - 2']), (r' \+ (?!1\b)', [' - ']), (r' - (?!1\b)', [' + ']), (r' \* ', [' + ']),
    (r' / ', [' % ']), (r' % ', [' / ']), (r' < ', [' ≤ ']), (r' ≤ ', [' < ']), (r' == ', [' != ']), (r' != ', [' == ']),
    (r' ≠ ', [' = ']), (r' > ', [' ≥ ']), (r' ≥ ', [' > ']), (r' ∧ ', [' ∨ ']), (r' && ', [' || ']), (r' \|\| ', [' && ']),
    (r'\btrue\b', ['false']), (r'\bfalse\b', ['true']), (r'(?<=[ (])\.zero\b', ['.one']), (r'(?<=[ (])\.one\b', ['.two']),
    (r'(?<=[ (])\.two\b', ['.zero']), (r'(?<![\w.₀-₉])0(?![\w.])', ['1']), (r'(?<![\w.₀-₉+-])(?<!- )(?<!\+ )1(?![\w.])', ['0', '2']),
    (r'(?<![\w.₀-₉])2(?![\w.])', ['1', '3']), (r'(?<![\w.₀-₉])4(?![\w.])', ['3']), (r'\bgroupGenInv\b', ['groupGen']),
    (r'\bgroupGen\b', ['groupGenInv']), (r'\boffsetInv\b', ['offset']), (r'\.offset\b', ['.offsetInv']), (r'\bsecret2\b', ['secret']),
    (r'\bpp\.secret\b', ['pp.secret2']), (r'\bunpack2\b', ['unpack']), (r'\bifft\b', ['fft']), (r'\.fft\b', ['.ifft']),
    (r'\bforUp\b', ['forDown']), (r'\bforDown\b', ['forUp']), (r'\bpp\.t\b', ['pp.l', '(pp.t + 1)']), (r'\bpp\.l\b', ['(pp.l + 1)']),
    (r'\bpp\.n\b', ['(pp.n - 1)', '(pp.n + 1)']), (r'\.reverse\b', ['']), (r'\bif ', ['if ¬ ']), (r' ++ ', None),
    (r'\brng\b', ['(fun _ => 0)']), (r'\.1\b', ['.2']), (r'\.2\b', ['.1']), (r'\bmask\.inMask\b', ['mask.outMask']),
    (r'\bmask\.outMask\b', ['mask.inMask']),
]
RULES = [(re.compile(p), r) for p, r in RULES if r]
DELETE = re.compile(r'^\s+(assert|debugAssert)\b.*$')

def candidates():
    res = []
    for f in sorted((ROOT / 'Verif/Model').glob('*.lean')):
        if f.name in SKIP: continue
        lines, depth, name = f.read_text().split('\n'), 0, None
        for i, l in enumerate(lines):
            d0 = depth
            depth += l.count('/-') - l.count('-/')
            if d0 or depth or '/-' in l or l.startswith(('import', 'set_option', 'open', 'namespace', 'variable', 'section', 'end', '--')):
                continue
            m = re.match(r'(?:@\[.*\]\s*)?(?:private |noncomputable )*(def|abbrev|structure|inductive|instance|class|theorem)\s+(\S+)', l)
            if m: name, kind = m[2], m[1]
            if name is None or kind in ('theorem', 'structure', 'class', 'inductive'): continue
            start = l.index(':=') + 2 if m and ':=' in l else (len(l) if m else 0)
            code = l.split(' --')[0]
            if DELETE.match(code): res.append((f.name, name, i, l, None))
            for p, rs in RULES:
                for x in p.finditer(code, start):
                    for r in rs:
                        new = l[:x.start()] + r + l[x.end():]
                        if new != l: res.append((f.name, name, i, l, new))
    return res

def reset():
    shutil.rmtree(SCRATCH, ignore_errors=True)
    subprocess.run(['cp', '-a', str(CLEAN), str(SCRATCH)], check=True)

def run(c):
    fname, name, i, old, new = c
    reset()
    f = SCRATCH / 'Verif/Model' / fname
    lines = f.read_text().split('\n')
    assert lines[i] == old
    if new is None: del lines[i]
    else: lines[i] = new
    f.write_text('\n'.join(lines))
    p = subprocess.Popen(['nice', '-n', '10', 'lake', 'build'], cwd=SCRATCH, stdout=subprocess.PIPE, stderr=subprocess.STDOUT, text=True, start_new_session=True)
    state, where = 'survived', None
    for l in p.stdout:
        m = re.match(r'error: (Verif/\S+\.lean):(\d+):\d+', l)
        if m:
            if m[1].startswith('Verif/Model/'): state, where = 'invalid', m[1]
            else:
                src = (SCRATCH / m[1]).read_text().split('\n')
                k = int(m[2]) - 1
                while k > 0 and not re.match(r'(theorem|lemma|example|def|instance|abbrev|noncomputable|private|@)', src[k]): k -= 1
                state, where = 'caught', m[1] + ' ' + src[k][:90]
            break
        if 'error:' in l and 'Verif/' not in l: state, where = 'error', l.strip()[:300]
    try: os.killpg(p.pid, signal.SIGKILL)
    except ProcessLookupError: pass
    p.wait()
    return {'file': fname, 'definition': name, 'line': i + 1, 'old': old.strip(), 'new': new and new.strip(), 'state': state, 'where': where}

if __name__ == '__main__':
    cs = candidates()
    if sys.argv[1] == 'list':
        cnt = {}
        for c in cs: cnt[c[0]] = cnt.get(c[0], 0) + 1
        print(len(cs), cnt)
    else:
        rnd = random.Random(int(sys.argv[2]))
        rnd.shuffle(cs)
        done = set()
        if OUT.exists():
            for l in OUT.read_text().splitlines():
                r = json.loads(l); done.add((r['file'], r['line'], r['old'], r['new']))
        n = 0
        for c in cs:
            if n >= int(sys.argv[3]): break
            if (c[0], c[2] + 1, c[3].strip(), c[4] and c[4].strip()) in done: continue
            r = run(c)
            n += 1
            with OUT.open('a') as o: o.write(json.dumps(r, ensure_ascii=False) + '\n')
            print(r['state'], r['file'], r['definition'], r['line'], '|', r['new'], '|', r['where'], flush=True)
