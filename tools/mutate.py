#!/usr/bin/env python3
"""Apply wrong-program edits to a scratch copy of the model and report which theorems stop proving.

usage: mutate.py edits.json   (a list of {"def", "file", "old", "new", "edit", "claim"})
The scratch copy is /tmp/mut/lean. Each result is appended to seeded/LOG.jsonl; an edit that breaks nothing is
printed as SURVIVED and logged with no failed theorem.
"""
import json, os, re, subprocess, sys, time
SRC, DST, LOG = '/verif/lean', '/tmp/mut/lean', '/verif/seeded/LOG.jsonl'

def sh(cmd, cwd=None):
    return subprocess.run(cmd, shell=True, cwd=cwd, capture_output=True, text=True)

def build():
    """lake build; a prover of the scratch copy that needs more than 7 GB is killed"""
    with open('/tmp/mut/build.out', 'w') as out:
        p = subprocess.Popen('lake build', shell=True, cwd=DST, stdout=out, stderr=subprocess.STDOUT)
        while p.poll() is None:
            time.sleep(0.5)
            for pid in filter(str.isdigit, os.listdir('/proc')):
                try:
                    cmd = open(f'/proc/{pid}/cmdline').read()
                    if '/bin/lean' in cmd and DST in cmd and int(open(f'/proc/{pid}/statm').read().split()[1]) * 4096 > 7e9:
                        os.kill(int(pid), 9)
                except (OSError, IndexError): pass
    return p.returncode, open('/tmp/mut/build.out').read()

def decl_at(path, line):
    name = '?'
    for i, l in enumerate(open(path), 1):
        if i > line: break
        m = re.match(r'(?:private |@\[.*\] )*(theorem|lemma|def|example|instance)\s*(\S*)', l)
        if m: name = m.group(2) if m.group(1) not in ('example',) else 'example@%d' % i
    return name

def dependents(failed_modules):
    """modules that import (transitively) a failed module"""
    imports = {}
    for d, _, fs in os.walk(DST + '/Verif'):
        for f in fs:
            if f.endswith('.lean'):
                p = os.path.join(d, f)
                m = os.path.relpath(p, DST)[:-5].replace('/', '.')
                imports[m] = re.findall(r'^import (Verif\.\S+)', open(p).read(), re.M)
    out, grew = set(failed_modules), True
    while grew:
        grew = False
        for m, im in imports.items():
            if m not in out and any(x in out for x in im): out.add(m); grew = True
    return out - set(failed_modules)

def main():
    edits = json.load(open(sys.argv[1]))
    note = '--nolog' not in sys.argv
    sh(f'rm -rf {DST} && cp -a {SRC} {DST}')
    for e in edits:
        p = f"{DST}/{e['file']}"
        orig = open(p).read()
        if orig.count(e['old']) != 1:
            print('BAD EDIT', e['def'], e['edit'], orig.count(e['old'])); continue
        open(p, 'w').write(orig.replace(e['old'], e['new']))
        code, out = build()
        failed, mods = [], []
        for m in re.finditer(r'error: (Verif/\S+?\.lean):(\d+):\d+', out):
            n = decl_at(f'{DST}/{m.group(1)}', int(m.group(2)))
            if n not in failed: failed.append(n)
            mod = m.group(1)[:-5].replace('/', '.')
            if mod not in mods: mods.append(mod)
        # a proof that exhausts the memory kills the prover: build the module again with a limit to know which one
        for m in re.finditer(r'^✖ .*Building (Verif\.\S+)', out, re.M):
            mod = m.group(1)
            if mod in mods: continue
            mods.append(mod)
            f = mod.replace('.', '/') + '.lean'
            r2 = sh(f'timeout 600 lake env lean -M 5000 {f}', cwd=DST)
            for k in re.finditer(r'^(Verif/\S+?\.lean):(\d+):\d+: error', r2.stdout + r2.stderr, re.M):
                n = decl_at(f'{DST}/{k.group(1)}', int(k.group(2)))
                if n not in failed: failed.append(n)
            if not failed: failed.append(f'{mod} (not built)')
        open(p, 'w').write(orig)
        if code != 0 and not failed:
            print('TOOL ERROR', e['def'], e['edit'], out[-300:]); continue
        if any('.Model.' in m or '.Base.' in m for m in mods):
            print('BAD EDIT (the model does not build)', e['def'], e['edit'], failed); continue
        blocked = sorted(m for m in dependents(mods) if '.Props.' in m) if mods else []
        rec = {'definition': e['def'], 'file': e['file'], 'edit': e['edit'], 'claim': e['claim'],
               'failed': failed, 'not_rebuilt': blocked, 'tightened': e.get('tightened', [])}
        print(('killed  ' if failed else 'SURVIVED'), e['def'], '|', e['edit'], '|', failed[:6], blocked)
        if note: open(LOG, 'a').write(json.dumps(rec, ensure_ascii=False) + '\n')
    sh('lake build', cwd=DST)
main()
