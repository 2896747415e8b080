#!/usr/bin/env python3
"""Seed wrong programs in a scratch copy of the Lean project and report the theorems that stop proving.

usage: mutate.py BATCH.json [TARGETS]    with BATCH a list of {file, definition, edit, claim, old, new}
TARGETS are the modules to build, all by default. MUT_DIR is the scratch directory. The scratch copy is made from the last commit; the results are appended to seeded/LOG.jsonl.
"""
import json, os, re, shutil, subprocess, sys
root = os.path.dirname(os.path.dirname(os.path.abspath(__file__)))
scratch = os.environ.get('MUT_DIR', '/tmp/mut')
base, targets = scratch + 'base', sys.argv[2:]
shutil.rmtree(base, ignore_errors=True)
os.makedirs(base)
subprocess.run('git archive HEAD lean | tar x -C %s && cp -a lean/.lake %s/lean/' % (base, base), shell=True, cwd=root, check=True)
subprocess.run(['lake', 'build'] + targets, cwd=base + '/lean', capture_output=True)

def names(src, line):
    lines = src.split('\n')
    i = line - 1
    while i >= 0:
        m = re.match(r'(?:private )?(?:noncomputable )?(?:theorem|lemma|def|structure|example)\s*(\S*)', lines[i])
        if m:
            return 'example' if lines[i].startswith('example') else m.group(1)
        i -= 1

def imports(mod):
    return re.findall(r'^import (Verif\.\S+)', open(os.path.join(scratch, mod.replace('.', '/') + '.lean')).read(), re.M)

for mut in json.load(open(sys.argv[1])):
    shutil.rmtree(scratch, ignore_errors=True)
    subprocess.run(['cp', '-a', base + '/lean', scratch], check=True)
    path = os.path.join(scratch, mut['file'])
    s = open(path).read()
    if s.count(mut['old']) != 1:
        print('SKIPPED (%d matches)' % s.count(mut['old']), mut['definition'], mut['edit'], flush=True)
        continue
    open(path, 'w').write(s.replace(mut['old'], mut['new']))
    out = subprocess.run(['timeout', '1500', 'lake', 'build'] + targets, cwd=scratch, capture_output=True, text=True)
    out = out.stdout + out.stderr
    failed = []
    for m in re.finditer(r'error: (?:\./)?(Verif/\S+\.lean):(\d+):\d+:', out):
        n = names(open(os.path.join(scratch, m.group(1))).read(), int(m.group(2)))
        if n and n not in failed:
            failed.append(n)
    bad = set(re.findall(r'✖ \[\d+/\d+\] Building (\S+)', out))
    blocked, changed = set(bad), True
    while changed:
        changed = False
        for m in imports('Verif'):
            if m not in blocked and any(i in blocked for i in imports(m)):
                blocked.add(m)
                changed = True
    entry = {'definition': mut['definition'], 'edit': mut['edit'], 'claim': mut['claim'], 'theorems_failed': failed,
             'modules_not_checked': sorted(blocked - bad), 'theorems_tightened': []}
    if 'Build completed successfully' in out:
        entry['survived'] = True
    print(('SURVIVED ' if entry.get('survived') else 'failed   ') + mut['definition'] + ' | ' + mut['edit'] + ' | ' + ', '.join(failed), flush=True)
    os.makedirs(root + '/seeded', exist_ok=True)
    with open(root + '/seeded/LOG.jsonl', 'a') as f:
        f.write(json.dumps(entry, ensure_ascii=False) + '\n')
