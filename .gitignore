lean/.lake/
*.olean
__pycache__/
