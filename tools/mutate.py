#!/usr/bin/env python3
"""Mutation testing of the theorems.

usage: mutate.py MUTANTS.json [id ...]

A mutant is {"id", "definition", "file", "old", "new", "claim", "breaks": ["Cnn", ...]}. The model is edited in a scratch copy of the
Lean project and rebuilt. A declaration with an error gets `sorry` as its proof (or is removed, if its statement no longer
elaborates), and the build is repeated until it passes. A property theorem has failed if it then depends on `sorryAx` or is gone.
One JSON line per mutant is appended to OUT."""
import json, os, re, shutil, subprocess, sys, pathlib
SCRATCH = pathlib.Path(os.environ.get('SCRATCH', '/tmp/mut/lean'))
CLEAN = pathlib.Path(os.environ.get('CLEAN', '/tmp/mut/clean'))
OUT = pathlib.Path(os.environ.get('OUT', '/tmp/mut/out.jsonl'))
MANIFEST = json.loads((pathlib.Path(__file__).resolve().parent.parent / 'MANIFEST.json').read_text())
DECL = re.compile(r'^(?:@\[[^\]]*\]\s*)?(?:private |protected |noncomputable |local )*(theorem|lemma|example|def|instance|abbrev|structure|inductive)\b')

def sh(cmd):
    return subprocess.run(cmd, cwd=SCRATCH, capture_output=True, text=True)

def decls(lines):
    """start lines (0-based) of top-level items; comments before a declaration belong to the item before it"""
    return [i for i, l in enumerate(lines) if l and not l[0].isspace() and not l.startswith(('--', '-/', '/-'))]

def split_body(text):
    """index of the `:=` or `where` that starts the body of a declaration"""
    depth, i = 0, 0
    while i < len(text):
        c = text[i]
        if text.startswith('--', i):
            i = text.find('\n', i); continue
        if c in '([{⟨': depth += 1
        elif c in ')]}⟩': depth -= 1
        elif depth == 0:
            if text.startswith(':=', i): return i
            if re.match(r'\bwhere\b', text[i:]) and text[i-1].isspace(): return i
            if text.startswith('\n  |', i): return i
        i += 1
    return None

def patch(path, errs, seen):
    lines = path.read_text().split('\n')
    starts = decls(lines)
    todo = {}
    for ln in errs:
        s = max([x for x in starts if x < ln], default=None)
        if s is not None: todo[s] = True
    res = []
    for s in sorted(todo, reverse=True):
        nxt = min([x for x in starts if x > s], default=len(lines))
        # keep a doc comment that precedes the next item
        e = nxt
        while e > s + 1 and not (lines[e-1] and lines[e-1][0].isspace()): e -= 1
        if e <= s: e = s + 1
        block = '\n'.join(lines[s:e])
        m = DECL.match(lines[s])
        name = lines[s][:120]
        key = (str(path), name)
        kind = m[1] if m else '?'
        if key in seen or kind == '?':
            new = '-- removed'
            # drop doc comment before it, otherwise it is a dangling doc comment
            b = s
            if b > 0 and lines[b-1].rstrip().endswith('-/'):
                while b > 0 and not lines[b-1].startswith('/--'): b -= 1
                if b > 0: b -= 1
            lines[b:e] = [new]
            res.append(('removed', name))
        else:
            k = split_body(block)
            if k is None:
                lines[s:e] = ['-- removed']; res.append(('removed', name))
            else:
                lines[s:e] = (block[:k].rstrip() + ' := sorry').split('\n')
                res.append(('sorry', name))
            seen.add(key)
    path.write_text('\n'.join(lines))
    return res

def run(mut):
    for p in (CLEAN / 'Verif').rglob('*.lean'):
        q = SCRATCH / p.relative_to(CLEAN)
        if q.read_text() != p.read_text(): q.write_text(p.read_text())
    f = SCRATCH / mut['file']
    src = f.read_text()
    edits = mut['edits'] if 'edits' in mut else [[mut['old'], mut['new']]]
    for old, new in edits:
        if src.count(old) < 1: return {'error': 'pattern not found: ' + old}
        src = src.replace(old, new, 1) if not mut.get('all') else src.replace(old, new)
    f.write_text(src)
    seen, failed = set(), []
    for it in range(40):
        r = sh(['lake', 'build'])
        errs = {}
        for m in re.finditer(r'^error: (Verif/\S+\.lean):(\d+):\d+', r.stdout + '\n' + r.stderr, re.M):
            errs.setdefault(m[1], set()).add(int(m[2]))
        if not errs:
            if r.returncode != 0: return {'error': (r.stdout + r.stderr)[-1500:], 'failed': failed}
            break
        for path, lns in errs.items():
            if path == mut['file'] and path.startswith('Verif/Model/'):
                return {'error': 'mutant does not compile: ' + (r.stdout)[-1500:]}
            failed += patch(SCRATCH / path, lns, seen)
    else:
        return {'error': 'too many rounds', 'failed': failed}
    names = sorted({n for c in MANIFEST['claims'] for n in c['theorems']})
    gone = {x[1].split()[1] for x in failed if x[0] == 'removed' and len(x[1].split()) > 1}
    ax = SCRATCH / 'axioms_tmp.lean'
    ax.write_text('import Verif\n' + ''.join(f'#print axioms {n}\n' for n in names if n.rsplit('.', 1)[1] not in gone))
    r = sh(['lake', 'env', 'lean', str(ax)])
    ax.unlink()
    bad = set()
    for m in re.finditer(r"'(\S+)' depends on axioms: \[([^\]]*)\]", r.stdout):
        if 'sorryAx' in m[2]: bad.add(m[1].rsplit('.', 1)[1])
    for m in re.finditer(r"nknown (?:identifier|constant) [`'](\S+?)[`']", r.stdout): bad.add(m[1].rsplit('.', 1)[-1])
    bad |= {n.rsplit('.', 1)[1] for n in names if n.rsplit('.', 1)[1] in gone}
    direct = sorted({x[1].split()[1] for x in failed if x[1].startswith('theorem C') })
    survived = {}
    for c in mut['breaks']:
        ts = [t.rsplit('.', 1)[1] for k in MANIFEST['claims'] if k['property'] == c for t in k['theorems']]
        if not any(t in bad for t in ts): survived[c] = ts
    return {'failed_theorems': sorted(bad), 'failed_here': direct, 'first_errors': [x[1] for x in failed][:12], 'not_detected': survived}

if __name__ == '__main__':
    muts = json.loads(pathlib.Path(sys.argv[1]).read_text())
    done = set()
    if OUT.exists(): done = {json.loads(l)['id'] for l in OUT.read_text().splitlines()}
    for m in muts:
        if (sys.argv[2:] and m['id'] not in sys.argv[2:]) or (not sys.argv[2:] and m['id'] in done): continue
        res = run(m)
        with OUT.open('a') as o: o.write(json.dumps({**m, **res}, ensure_ascii=False) + '\n')
        print(m['id'], 'ERROR ' + res['error'][:300] if 'error' in res else ('MISSED ' + str(res['not_detected']) if res['not_detected'] else 'caught'), flush=True)
